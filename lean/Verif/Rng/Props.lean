import Verif.Rng.Model
import Verif.MapDs.PropsSeq
/-
Property C16: the random numbers a `random_map` sees for an element depend only on the seed and the position.
-/
namespace Grain

/-- The generator for position `i` under a seed whose Philox key is `key`. -/
def genAt (key i : Nat) : Gen :=
  { key := key, counter := [0, 0, 0, i], buffer := [0, 0, 0, 0], bufferPos := 4, hasUint32 := 0, uinteger := 0 }

/-- The first `n` draws from a generator. -/
def drawsFrom (drawFn : Gen → Nat × Gen) : Nat → Gen → List Nat
  | 0, _ => []
  | n + 1, g => (drawFn g).1 :: drawsFrom drawFn n (drawFn g).2

/-- The generator after `n` draws. -/
def genAfter (drawFn : Gen → Nat × Gen) : Nat → Gen → Gen
  | 0, g => g
  | n + 1, g => genAfter drawFn n (drawFn g).2

theorem drawsFrom_succ (drawFn : Gen → Nat × Gen) (n : Nat) (g : Gen) :
    drawsFrom drawFn (n + 1) g = drawsFrom drawFn n g ++ [(drawFn (genAfter drawFn n g)).1] := by
  induction n generalizing g with
  | zero => rfl
  | succ n ih => rw [drawsFrom, ih]; rfl

theorem genAfter_succ (drawFn : Gen → Nat × Gen) (n : Nat) (g : Gen) :
    genAfter drawFn (n + 1) g = (drawFn (genAfter drawFn n g)).2 := by
  induction n generalizing g with
  | zero => rfl
  | succ n ih => rw [genAfter, ih]; rfl

theorem drawsFrom_length (drawFn : Gen → Nat × Gen) (n : Nat) (g : Gen) : (drawsFrom drawFn n g).length = n := by
  induction n generalizing g with
  | zero => rfl
  | succ n ih => simp [drawsFrom, ih]

/-- Invariant of the pool: every generator has the key of the seed, generators are owned by at most one thread and not
cached while owned, and a thread that has reset its generator is at the right place of the right sequence. -/
structure PoolInv (key : Nat) (drawFn : Gen → Nat × Gen) (heap : List Gen) (cache : List Nat)
    (threads : Nat → Option RngHold) : Prop where
  keys : ∀ (i : Nat) (g : Gen), heap[i]? = some g → g.key = key
  cache_lt : ∀ i ∈ cache, i < heap.length
  cache_nodup : cache.Nodup
  held_lt : ∀ t h, threads t = some h → h.gen < heap.length
  held_cache : ∀ t h, threads t = some h → h.gen ∉ cache
  held_inj : ∀ t t' h h', threads t = some h → threads t' = some h' → h.gen = h'.gen → t = t'
  ready : ∀ t h, threads t = some h → h.ready = true →
    0 ≤ h.index ∧ h.index < 2 ^ 64 ∧ heap[h.gen]? = some (genAfter drawFn h.outs.length (genAt key h.index.toNat)) ∧
    h.outs = drawsFrom drawFn h.outs.length (genAt key h.index.toNat)
  fresh : ∀ t h, threads t = some h → h.ready = false → h.outs = []

theorem poolInv_init (key : Nat) (drawFn) : PoolInv key drawFn poolInit.heap poolInit.cache poolInit.threads := by
  constructor <;> simp [poolInit]

theorem poolInv_step {key : Nat} {newGen : Gen} {drawFn : Gen → Nat × Gen} (hnew : newGen.key = key)
    (hdraw : ∀ g, (drawFn g).2.key = g.key) {s s' : PoolState} (hs : PoolInv key drawFn s.heap s.cache s.threads) (a : PoolAct)
    (h : poolStep newGen drawFn s a = some s') : PoolInv key drawFn s'.heap s'.cache s'.threads := by
  cases a with
  | acquire t index =>
    simp only [poolStep] at h
    cases hth : s.threads t with
    | some _ => rw [hth] at h; cases h
    | none =>
      rw [hth] at h
      cases hc : s.cache.getLast? with
      | some g =>
        rw [hc] at h
        simp only [Option.some.injEq] at h
        have hcache : s.cache = s.cache.dropLast ++ [g] := by
          have := List.dropLast_append_getLast? g hc
          exact this.symm
        have hgmem : g ∈ s.cache := by rw [hcache]; simp
        have hnd : (s.cache.dropLast ++ [g]).Nodup := hcache ▸ hs.cache_nodup
        rw [List.nodup_append] at hnd
        subst h
        dsimp only
        refine ⟨hs.keys, fun i hi => hs.cache_lt i (List.dropLast_subset _ hi), hnd.1, ?_, ?_, ?_, ?_, ?_⟩
        · intro t' h' ht'
          by_cases he : t' = t
          · subst he
            rw [Function.update_self] at ht'
            obtain rfl := Option.some.inj ht'
            exact hs.cache_lt g hgmem
          · rw [Function.update_of_ne he] at ht'
            exact hs.held_lt t' h' ht'
        · intro t' h' ht'
          by_cases he : t' = t
          · subst he
            rw [Function.update_self] at ht'
            obtain rfl := Option.some.inj ht'
            intro hm
            exact hnd.2.2 g hm g (by simp) rfl
          · rw [Function.update_of_ne he] at ht'
            exact fun hm => hs.held_cache t' h' ht' (List.dropLast_subset _ hm)
        · intro t1 t2 h1 h2 e1 e2 heq
          by_cases he1 : t1 = t <;> by_cases he2 : t2 = t
          · rw [he1, he2]
          · subst he1
            rw [Function.update_self] at e1
            obtain rfl := Option.some.inj e1
            rw [Function.update_of_ne he2] at e2
            exact absurd hgmem (by have := hs.held_cache t2 h2 e2; rw [← heq] at this; exact this)
          · subst he2
            rw [Function.update_self] at e2
            obtain rfl := Option.some.inj e2
            rw [Function.update_of_ne he1] at e1
            exact absurd hgmem (by have := hs.held_cache t1 h1 e1; rw [heq] at this; exact this)
          · rw [Function.update_of_ne he1] at e1
            rw [Function.update_of_ne he2] at e2
            exact hs.held_inj t1 t2 h1 h2 e1 e2 heq
        · intro t' h' ht' hr
          by_cases he : t' = t
          · subst he
            rw [Function.update_self] at ht'
            obtain rfl := Option.some.inj ht'
            cases hr
          · rw [Function.update_of_ne he] at ht'
            exact hs.ready t' h' ht' hr
        · intro t' h' ht' hr
          by_cases he : t' = t
          · subst he
            rw [Function.update_self] at ht'
            obtain rfl := Option.some.inj ht'
            rfl
          · rw [Function.update_of_ne he] at ht'
            exact hs.fresh t' h' ht' hr
      | none =>
        rw [hc] at h
        simp only [Option.some.injEq] at h
        have hemp : s.cache = [] := List.getLast?_eq_none_iff.1 hc
        subst h
        dsimp only
        refine ⟨?_, by simp [hemp], by simp [hemp], ?_, by simp [hemp], ?_, ?_, ?_⟩
        · intro i g hg
          by_cases hi : i < s.heap.length
          · rw [List.getElem?_append_left hi] at hg
            exact hs.keys i g hg
          · rw [List.getElem?_append_right (by omega)] at hg
            obtain ⟨_, rfl⟩ : _ ∧ newGen = g := by simpa [List.getElem?_singleton] using hg
            exact hnew
        · intro t' h' ht'
          by_cases he : t' = t
          · subst he
            rw [Function.update_self] at ht'
            obtain rfl := Option.some.inj ht'
            simp
          · rw [Function.update_of_ne he] at ht'
            have := hs.held_lt t' h' ht'
            simp; omega
        · intro t1 t2 h1 h2 e1 e2 heq
          by_cases he1 : t1 = t <;> by_cases he2 : t2 = t
          · rw [he1, he2]
          · subst he1
            rw [Function.update_self] at e1
            obtain rfl := Option.some.inj e1
            rw [Function.update_of_ne he2] at e2
            have := hs.held_lt t2 h2 e2
            simp only [] at heq
            omega
          · subst he2
            rw [Function.update_self] at e2
            obtain rfl := Option.some.inj e2
            rw [Function.update_of_ne he1] at e1
            have := hs.held_lt t1 h1 e1
            simp only [] at heq
            omega
          · rw [Function.update_of_ne he1] at e1
            rw [Function.update_of_ne he2] at e2
            exact hs.held_inj t1 t2 h1 h2 e1 e2 heq
        · intro t' h' ht' hr
          by_cases he : t' = t
          · subst he
            rw [Function.update_self] at ht'
            obtain rfl := Option.some.inj ht'
            cases hr
          · rw [Function.update_of_ne he] at ht'
            obtain ⟨h1, h2, h3, h4⟩ := hs.ready t' h' ht' hr
            refine ⟨h1, h2, ?_, h4⟩
            rw [List.getElem?_append_left (hs.held_lt t' h' ht')]
            exact h3
        · intro t' h' ht' hr
          by_cases he : t' = t
          · subst he
            rw [Function.update_self] at ht'
            obtain rfl := Option.some.inj ht'
            rfl
          · rw [Function.update_of_ne he] at ht'
            exact hs.fresh t' h' ht' hr
  | reset t =>
    simp only [poolStep] at h
    cases hth : s.threads t with
    | none => rw [hth] at h; cases h
    | some hd =>
      rw [hth] at h
      simp only [] at h
      cases hrd : hd.ready with
      | true => rw [hrd] at h; cases h
      | false =>
        rw [hrd] at h
        simp only [Bool.false_eq_true, if_false] at h
        cases hg : s.heap[hd.gen]? with
        | none => rw [hg] at h; cases h
        | some g =>
          rw [hg] at h
          simp only [resetGen] at h
          split at h
          · cases h
          · rename_i g' hg'
            split at hg'
            · cases hg'
            · rename_i hrange
              obtain rfl := Except.ok.inj hg'
              have hkey := hs.keys _ g hg
              have hlt := hs.held_lt t hd hth
              have hg2 : ({ g with counter := [0, 0, (0 : Int).toNat, hd.index.toNat], buffer := [0, 0, 0, 0], bufferPos := 4, hasUint32 := 0, uinteger := 0 } : Gen) = genAt key hd.index.toNat := by
                simp [genAt, hkey]
              rw [hg2] at h
              obtain rfl := Option.some.inj h
              dsimp only
              refine ⟨?_, fun i hi => by simpa using hs.cache_lt i hi, hs.cache_nodup, ?_, ?_, ?_, ?_, ?_⟩
              · intro i g1 h1
                simp only [List.getElem?_set, if_pos hlt] at h1
                split at h1
                · obtain rfl := Option.some.inj h1; rfl
                · exact hs.keys i g1 h1
              · intro t' h' ht'
                rw [List.length_set]
                by_cases he : t' = t
                · subst he
                  rw [Function.update_self] at ht'
                  obtain rfl := Option.some.inj ht'
                  exact hlt
                · rw [Function.update_of_ne he] at ht'
                  exact hs.held_lt t' h' ht'
              · intro t' h' ht'
                by_cases he : t' = t
                · subst he
                  rw [Function.update_self] at ht'
                  obtain rfl := Option.some.inj ht'
                  exact hs.held_cache t' hd hth
                · rw [Function.update_of_ne he] at ht'
                  exact hs.held_cache t' h' ht'
              · have hk2 : ∀ t' h', Function.update s.threads t (some { hd with ready := true }) t' = some h' →
                    ∃ h'', s.threads t' = some h'' ∧ h''.gen = h'.gen := by
                  intro t' h' ht'
                  by_cases he : t' = t
                  · subst he
                    rw [Function.update_self] at ht'
                    obtain rfl := Option.some.inj ht'
                    exact ⟨hd, hth, rfl⟩
                  · rw [Function.update_of_ne he] at ht'
                    exact ⟨h', ht', rfl⟩
                intro t1 t2 h1 h2 e1 e2 heq
                obtain ⟨k1, f1, g1⟩ := hk2 t1 h1 e1
                obtain ⟨k2, f2, g2⟩ := hk2 t2 h2 e2
                exact hs.held_inj t1 t2 k1 k2 f1 f2 (by rw [g1, g2, heq])
              · intro t' h' ht' hr
                by_cases he : t' = t
                · subst he
                  rw [Function.update_self] at ht'
                  obtain rfl := Option.some.inj ht'
                  have ho := hs.fresh t' hd hth hrd
                  refine ⟨by simp only []; omega, by simp only []; omega, ?_, ?_⟩
                  · simp only [ho, List.length_nil, genAfter]
                    rw [List.getElem?_set_self hlt]
                  · simp [ho, drawsFrom]
                · rw [Function.update_of_ne he] at ht'
                  obtain ⟨h1, h2, h3, h4⟩ := hs.ready t' h' ht' hr
                  refine ⟨h1, h2, ?_, h4⟩
                  rw [List.getElem?_set_ne (fun hc => he (hs.held_inj t' t h' hd ht' hth hc.symm))]
                  exact h3
              · intro t' h' ht' hr
                by_cases he : t' = t
                · subst he
                  rw [Function.update_self] at ht'
                  obtain rfl := Option.some.inj ht'
                  cases hr
                · rw [Function.update_of_ne he] at ht'
                  exact hs.fresh t' h' ht' hr
  | draw t =>
    simp only [poolStep] at h
    cases hth : s.threads t with
    | none => rw [hth] at h; cases h
    | some hd =>
      rw [hth] at h
      simp only [] at h
      cases hrd : hd.ready with
      | false => rw [hrd] at h; cases h
      | true =>
        rw [hrd] at h
        simp only [if_true] at h
        cases hg : s.heap[hd.gen]? with
        | none => rw [hg] at h; cases h
        | some g =>
          rw [hg] at h
          obtain rfl := Option.some.inj h
          dsimp only
          have hlt := hs.held_lt t hd hth
          have hk2 : ∀ t' h', Function.update s.threads t (some { hd with outs := hd.outs ++ [(drawFn g).1], ready := true }) t' = some h' →
              ∃ h'', s.threads t' = some h'' ∧ h''.gen = h'.gen := by
            intro t' h' ht'
            by_cases he : t' = t
            · subst he
              rw [Function.update_self] at ht'
              obtain rfl := Option.some.inj ht'
              exact ⟨hd, hth, rfl⟩
            · rw [Function.update_of_ne he] at ht'
              exact ⟨h', ht', rfl⟩
          refine ⟨?_, fun i hi => by simpa using hs.cache_lt i hi, hs.cache_nodup, ?_, ?_, ?_, ?_, ?_⟩
          · intro i g1 h1
            simp only [List.getElem?_set, if_pos hlt] at h1
            split at h1
            · obtain rfl := Option.some.inj h1
              rw [hdraw]; exact hs.keys _ g hg
            · exact hs.keys i g1 h1
          · intro t' h' ht'
            rw [List.length_set]
            obtain ⟨k1, f1, g1⟩ := hk2 t' h' ht'
            rw [← g1]
            exact hs.held_lt t' k1 f1
          · intro t' h' ht'
            obtain ⟨k1, f1, g1⟩ := hk2 t' h' ht'
            rw [← g1]
            exact hs.held_cache t' k1 f1
          · intro t1 t2 h1 h2 e1 e2 heq
            obtain ⟨k1, f1, g1⟩ := hk2 t1 h1 e1
            obtain ⟨k2, f2, g2⟩ := hk2 t2 h2 e2
            exact hs.held_inj t1 t2 k1 k2 f1 f2 (by rw [g1, g2, heq])
          · intro t' h' ht' hr
            by_cases he : t' = t
            · subst he
              rw [Function.update_self] at ht'
              obtain rfl := Option.some.inj ht'
              obtain ⟨h1, h2, h3, h4⟩ := hs.ready t' hd hth hrd
              have hge : g = genAfter drawFn hd.outs.length (genAt key hd.index.toNat) := by
                rw [hg] at h3; exact Option.some.inj h3
              refine ⟨h1, h2, ?_, ?_⟩
              · simp only [List.length_append, List.length_cons, List.length_nil, Nat.zero_add]
                rw [List.getElem?_set_self hlt, genAfter_succ, ← hge]
              · simp only [List.length_append, List.length_cons, List.length_nil, Nat.zero_add]
                rw [drawsFrom_succ, ← hge, ← h4]
            · rw [Function.update_of_ne he] at ht'
              obtain ⟨h1, h2, h3, h4⟩ := hs.ready t' h' ht' hr
              refine ⟨h1, h2, ?_, h4⟩
              rw [List.getElem?_set_ne (fun hc => he (hs.held_inj t' t h' hd ht' hth hc.symm))]
              exact h3
          · intro t' h' ht' hr
            by_cases he : t' = t
            · subst he
              rw [Function.update_self] at ht'
              obtain rfl := Option.some.inj ht'
              cases hr
            · rw [Function.update_of_ne he] at ht'
              exact hs.fresh t' h' ht' hr
  | release t =>
    simp only [poolStep] at h
    cases hth : s.threads t with
    | none => rw [hth] at h; cases h
    | some hd =>
      rw [hth] at h
      simp only [] at h
      split at h
      · obtain rfl := Option.some.inj h
        dsimp only
        have hk2 : ∀ t' h', Function.update s.threads t none t' = some h' → t' ≠ t ∧ s.threads t' = some h' := by
          intro t' h' ht'
          by_cases he : t' = t
          · subst he; rw [Function.update_self] at ht'; cases ht'
          · rw [Function.update_of_ne he] at ht'; exact ⟨he, ht'⟩
        refine ⟨hs.keys, ?_, ?_, fun t' h' ht' => hs.held_lt t' h' (hk2 t' h' ht').2, ?_, ?_, ?_, ?_⟩
        · intro i hi
          rcases List.mem_append.1 hi with hi | hi
          · exact hs.cache_lt i hi
          · rw [List.mem_singleton.1 hi]; exact hs.held_lt t hd hth
        · rw [List.nodup_append]
          refine ⟨hs.cache_nodup, by simp, ?_⟩
          intro a ha b hb hab
          rw [List.mem_singleton.1 hb] at hab
          rw [hab] at ha
          exact hs.held_cache t hd hth ha
        · intro t' h' ht' hm
          obtain ⟨he, ht⟩ := hk2 t' h' ht'
          rcases List.mem_append.1 hm with hm | hm
          · exact hs.held_cache t' h' ht hm
          · exact he (hs.held_inj t' t h' hd ht hth (List.mem_singleton.1 hm))
        · intro t1 t2 h1 h2 e1 e2 heq
          exact hs.held_inj t1 t2 h1 h2 (hk2 t1 h1 e1).2 (hk2 t2 h2 e2).2 heq
        · intro t' h' ht' hr
          exact hs.ready t' h' (hk2 t' h' ht').2 hr
        · intro t' h' ht' hr
          exact hs.fresh t' h' (hk2 t' h' ht').2 hr
      · cases h
  | abandon t =>
    simp only [poolStep] at h
    cases hth : s.threads t with
    | none => rw [hth] at h; cases h
    | some hd =>
      rw [hth] at h
      obtain rfl := Option.some.inj h
      dsimp only
      have hk2 : ∀ t' h', Function.update s.threads t none t' = some h' → s.threads t' = some h' := by
        intro t' h' ht'
        by_cases he : t' = t
        · subst he; rw [Function.update_self] at ht'; cases ht'
        · rw [Function.update_of_ne he] at ht'; exact ht'
      exact ⟨hs.keys, hs.cache_lt, hs.cache_nodup, fun t' h' ht' => hs.held_lt t' h' (hk2 t' h' ht'),
        fun t' h' ht' => hs.held_cache t' h' (hk2 t' h' ht'),
        fun t1 t2 h1 h2 e1 e2 heq => hs.held_inj t1 t2 h1 h2 (hk2 t1 h1 e1) (hk2 t2 h2 e2) heq,
        fun t' h' ht' hr => hs.ready t' h' (hk2 t' h' ht') hr,
        fun t' h' ht' hr => hs.fresh t' h' (hk2 t' h' ht') hr⟩

theorem poolInv_run {key : Nat} {newGen : Gen} {drawFn : Gen → Nat × Gen} (hnew : newGen.key = key)
    (hdraw : ∀ g, (drawFn g).2.key = g.key) (as : List PoolAct) {s s' : PoolState} (hs : PoolInv key drawFn s.heap s.cache s.threads)
    (h : poolRun newGen drawFn as s = some s') : PoolInv key drawFn s'.heap s'.cache s'.threads := by
  induction as generalizing s with
  | nil => cases h; exact hs
  | cons a as ih =>
    rw [poolRun] at h
    cases ha : poolStep newGen drawFn s a with
    | none => rw [ha] at h; cases h
    | some s1 => rw [ha] at h; exact ih (poolInv_step hnew hdraw hs a ha) h

/-- C16: for every interleaving of any number of threads taking, using, returning and abandoning generators, what a
thread has drawn so far for the element at `index` is a prefix of the fixed sequence of the generator
`Philox(seed)` at counter `index`.  Draws are any function that does not change the key. -/
theorem random_map_draws_fixed {newGen : Gen} {drawFn : Gen → Nat × Gen} (hdraw : ∀ g, (drawFn g).2.key = g.key)
    (as : List PoolAct) (s : PoolState) (hrun : poolRun newGen drawFn as poolInit = some s) (t : Nat) (h : RngHold)
    (ht : s.threads t = some h) (hne : h.outs ≠ []) :
    0 ≤ h.index ∧ h.index < 2 ^ 64 ∧ h.outs = drawsFrom drawFn h.outs.length (genAt newGen.key h.index.toNat) := by
  have hinv := poolInv_run rfl hdraw as (poolInv_init newGen.key drawFn) hrun
  cases hr : h.ready with
  | false => exact absurd (hinv.fresh t h ht hr) hne
  | true =>
    obtain ⟨h1, h2, _, h4⟩ := hinv.ready t h ht hr
    exact ⟨h1, h2, h4⟩

/-- C16: no two threads ever use the same generator object at the same time. -/
theorem random_map_generators_exclusive {newGen : Gen} {drawFn : Gen → Nat × Gen} (hdraw : ∀ g, (drawFn g).2.key = g.key)
    (as : List PoolAct) (s : PoolState) (hrun : poolRun newGen drawFn as poolInit = some s) (t t' : Nat) (h h' : RngHold)
    (ht : s.threads t = some h) (ht' : s.threads t' = some h') (hne : t ≠ t') : h.gen ≠ h'.gen :=
  fun hc => hne ((poolInv_run rfl hdraw as (poolInv_init newGen.key drawFn) hrun).held_inj t t' h h' ht ht' hc)

/-- C16: a thread that has taken a generator for a position below `2^64` is never blocked: it can reset it. -/
theorem random_map_reset_possible {newGen : Gen} {drawFn : Gen → Nat × Gen} (hdraw : ∀ g, (drawFn g).2.key = g.key)
    (as : List PoolAct) (s : PoolState) (hrun : poolRun newGen drawFn as poolInit = some s) (t : Nat) (h : RngHold)
    (ht : s.threads t = some h) (hr : h.ready = false) (h0 : 0 ≤ h.index) (h1 : h.index < 2 ^ 64) :
    (poolStep newGen drawFn s (.reset t)).isSome := by
  have hinv := poolInv_run rfl hdraw as (poolInv_init newGen.key drawFn) hrun
  have hlt := hinv.held_lt t h ht
  simp only [poolStep, ht, hr, Bool.false_eq_true, if_false, List.getElem?_eq_getElem hlt, resetGen]
  rw [if_neg (by omega)]
  rfl

/-- C16: different positions have different generators. -/
theorem generators_distinct (key i j : Nat) (h : genAt key i = genAt key j) : i = j := by
  simp only [genAt, Gen.mk.injEq, List.cons.injEq] at h
  exact h.2.1.2.2.2.1

/-- C16, C31: in stream pipelines under `n` worker processes, worker `w` uses number `w + k * n` for its `k`-th element
(`randomMap_resumes_exactly`): all workers together use each number exactly once, and number `m` belongs to the element
that is at place `m` of the round robin over the workers. -/
theorem worker_generator_numbers (n : Nat) (hn : 0 < n) (m : Nat) :
    ∃ w k, w < n ∧ m = w + k * n ∧ ∀ w' k', w' < n → m = w' + k' * n → w' = w ∧ k' = k := by
  refine ⟨m % n, m / n, Nat.mod_lt _ hn, by have := Nat.mod_add_div m n; rw [Nat.mul_comm]; omega, ?_⟩
  rintro w k hw rfl
  constructor
  · rw [Nat.add_mul_mod_self_right, Nat.mod_eq_of_lt hw]
  · rw [Nat.add_mul_div_right _ _ hn, Nat.div_eq_of_lt hw, Nat.zero_add]

/-- Two threads, a generator that is returned and reused for another position. -/
example : ∃ s h, poolRun (genAt 9 0) (fun g => (g.counter.sum + g.bufferPos, { g with bufferPos := g.bufferPos + 1 }))
    [.acquire 0 5, .acquire 1 6, .reset 1, .reset 0, .draw 0, .release 0, .acquire 2 7, .reset 2, .draw 2, .draw 1, .draw 2]
    poolInit = some s ∧ s.threads 2 = some h ∧ h.outs = [11, 12] := by
  refine ⟨_, _, rfl, rfl, rfl⟩

end Grain
