import Verif.Elastic.Lemmas
import Verif.Elastic.Spec
/-
Lemmas about elastic checkpoints: files, hosts, phases.
-/
namespace Grain

theorem lt_hostLen {D c i l : Nat} (hc : 0 < c) : l < hostLen D c i ↔ l * c + i < D := by
  unfold hostLen
  rw [Nat.lt_iff_add_one_le, Nat.le_div_iff_mul_le hc, Nat.add_mul]
  generalize l * c = x
  omega

/-! ### Files -/

variable {σ : Type}

theorem writeFiles_not {k : Nat} : ∀ (files : List (Nat × σ)), (∀ v, (k, v) ∉ files) → ∀ dir : Nat → Option σ,
    writeFiles dir files k = dir k := by
  intro files
  induction files with
  | nil => intro _ dir; rfl
  | cons a files ih =>
    intro h dir
    have : k ≠ a.1 := fun e => h a.2 (by rw [e]; exact List.mem_cons_self)
    unfold writeFiles
    rw [List.foldl_cons]
    have := ih (fun v hv => h v (List.mem_cons_of_mem _ hv)) (Function.update dir a.1 (some a.2))
    unfold writeFiles at this
    rw [this, upd_ne _ _ (by assumption)]

theorem writeFiles_mem {k : Nat} {v : σ} : ∀ (files : List (Nat × σ)) (dir : Nat → Option σ), (k, v) ∈ files →
    (∀ v', (k, v') ∈ files → v' = v) → writeFiles dir files k = some v := by
  intro files
  induction files with
  | nil => intro dir h; cases h
  | cons a files ih =>
    intro dir h hu
    change writeFiles (Function.update dir a.1 (some a.2)) files k = some v
    by_cases hm : (k, v) ∈ files
    · exact ih _ hm (fun v' h' => hu v' (List.mem_cons_of_mem _ h'))
    · have ha : a = (k, v) := by
        rcases List.mem_cons.1 h with h | h
        · exact h.symm
        · exact absurd h hm
      subst ha
      rw [writeFiles_not]
      · exact upd_same _ _ _
      · intro v' hv'
        have := hu v' (List.mem_cons_of_mem _ hv')
        subst this
        exact hm hv'

/-- The directory with state `sh d` for each dataset `d`. -/
def dirOf (D : Nat) (sh : Nat → σ) (k : Nat) : Option σ := if k < D then some (sh k) else none

theorem mem_shardFiles {c i k : Nat} {l : List σ} {v : σ} : (k, v) ∈ shardFiles c i l ↔ ∃ j, l[j]? = some v ∧ k = j * c + i := by
  unfold shardFiles
  rw [List.mem_iff_getElem?]
  constructor
  · rintro ⟨j, h⟩
    rw [List.getElem?_mapIdx] at h
    cases hl : l[j]? with
    | none => rw [hl] at h; cases h
    | some s =>
      rw [hl] at h
      cases h
      exact ⟨j, hl, rfl⟩
  · rintro ⟨j, h, rfl⟩
    exact ⟨j, by rw [List.getElem?_mapIdx, h]; rfl⟩

/-- All hosts together save the states of all datasets, in whatever order the files are written. -/
theorem writeFiles_hosts {D c : Nat} (hc : 0 < c) {states : Nat → List σ} {sh : Nat → σ}
    (hst : ∀ i, i < c → states i = (List.range (hostLen D c i)).map (fun l => sh (l * c + i))) {files : List (Nat × σ)}
    (hf : ∀ q, q ∈ files ↔ ∃ i, i < c ∧ q ∈ shardFiles c i (states i)) : writeFiles (fun _ => none) files = dirOf D sh := by
  have hval : ∀ k v, (k, v) ∈ files → k < D ∧ v = sh k := by
    intro k v h
    obtain ⟨i, hi, h⟩ := (hf _).1 h
    obtain ⟨j, h', rfl⟩ := mem_shardFiles.1 h
    rw [hst i hi] at h'
    have hlt := lt_of_getElem?_some h'
    rw [List.length_map, List.length_range] at hlt
    rw [List.getElem?_map, List.getElem?_range hlt] at h'
    cases h'
    exact ⟨(lt_hostLen hc).1 hlt, rfl⟩
  funext k
  unfold dirOf
  by_cases hk : k < D
  · rw [if_pos hk]
    refine writeFiles_mem _ _ ?_ (fun v' h' => (hval k v' h').2)
    have hmod := Nat.mod_lt k hc
    have hdm := Nat.div_add_mod k c
    have hj : k / c < hostLen D c (k % c) := (lt_hostLen hc).2 (by rw [Nat.mul_comm]; omega)
    refine (hf _).2 ⟨k % c, hmod, mem_shardFiles.2 ⟨k / c, ?_, by rw [Nat.mul_comm]; omega⟩⟩
    rw [hst _ hmod, List.getElem?_map, List.getElem?_range hj]
    rw [Option.map_some, Nat.mul_comm, hdm]
  · rw [if_neg hk]
    exact writeFiles_not _ (fun v h => hk (hval k v h).1) _

theorem saveHosts_eq {D c : Nat} (hc : 0 < c) {states : Nat → List σ} {sh : Nat → σ}
    (hst : ∀ i, i < c → states i = (List.range (hostLen D c i)).map (fun l => sh (l * c + i))) : saveHosts c states = dirOf D sh := by
  refine writeFiles_hosts hc hst ?_
  intro q
  rw [List.mem_flatMap]
  constructor
  · rintro ⟨i, hi, h⟩
    exact ⟨i, List.mem_range.1 hi, h⟩
  · rintro ⟨i, hi, h⟩
    exact ⟨i, List.mem_range.2 hi, h⟩

theorem readFiles_from {D c i : Nat} (hc : 0 < c) (sh : Nat → σ) : ∀ (k l F : Nat), l + k = hostLen D c i → k < F →
    readFiles (dirOf D sh) c F (l * c + i) = some ((List.range' l k).map (fun l => (l * c + i, sh (l * c + i)))) := by
  intro k
  induction k with
  | zero =>
    intro l F hl hF
    obtain ⟨F, rfl⟩ : ∃ F', F = F' + 1 := ⟨F - 1, by omega⟩
    have : ¬ l * c + i < D := fun h => by have := (lt_hostLen hc).2 h; omega
    simp only [readFiles, dirOf, this, if_false]
    rfl
  | succ k ih =>
    intro l F hl hF
    obtain ⟨F, rfl⟩ : ∃ F', F = F' + 1 := ⟨F - 1, by omega⟩
    have : l * c + i < D := (lt_hostLen hc).1 (by omega)
    have h2 := ih (l + 1) F (by omega) (by omega)
    rw [show (l + 1) * c + i = l * c + i + c by rw [Nat.add_mul]; omega] at h2
    simp only [readFiles, dirOf, this, if_true]
    change Option.map _ (readFiles (dirOf D sh) c F _) = _
    rw [h2, List.range'_succ]
    rfl

/-- A host reads the states of its datasets, in order. -/
theorem orderStates_readFiles {D c i F : Nat} (hc : 0 < c) (sh : Nat → σ) (hF : hostLen D c i < F) :
    (readFiles (dirOf D sh) c F i).map orderStates = some ((List.range (hostLen D c i)).map (fun l => sh (l * c + i))) := by
  have := readFiles_from hc sh (D := D) (i := i) (hostLen D c i) 0 F (by omega) hF
  rw [Nat.zero_mul, Nat.zero_add] at this
  rw [this, Option.map_some, ← List.range_eq_range']
  unfold orderStates
  rw [List.Pairwise.insertionSort_eq, List.map_map]
  · rfl
  · rw [List.pairwise_map]
    refine List.pairwise_lt_range.imp ?_
    intro a b h
    have : a * c ≤ b * c := Nat.mul_le_mul_right c (Nat.le_of_lt h)
    simpa using this

/-! ### Which datasets a restored host opens first -/

theorem active_take_of_count {C : Type} {shards : List (ShardState C)} {L : Nat} {q : ShardState C × Nat} (h : q ∈ activeShards shards)
    (hlt : ((activeShards shards).filter (fun r => r.2 < q.2)).length < L) : q ∈ (activeShards shards).take L := by
  have hs := active_sorted (shards := shards)
  rw [← List.take_append_drop L (activeShards shards), List.mem_append] at h
  rcases h with h | h
  · exact h
  · exfalso
    rw [← List.take_append_drop L (activeShards shards), List.pairwise_append] at hs
    rw [← List.take_append_drop L (activeShards shards), List.filter_append, List.length_append] at hlt
    have hall : ((activeShards shards).take L).filter (fun r => decide (r.2 < q.2)) = (activeShards shards).take L :=
      List.filter_eq_self.2 (fun r hr => by simpa using hs.2.2 r hr q h)
    rw [hall, List.length_take] at hlt
    have := List.length_pos_iff.2 (List.ne_nil_of_mem h)
    rw [List.length_drop] at this
    omega

/-- The states of one host. -/
def hostShards (D c i : Nat) (sh : Nat → σ) : List σ := (List.range (hostLen D c i)).map (fun l => sh (l * c + i))

theorem hostShards_length {D c i : Nat} {sh : Nat → σ} : (hostShards D c i sh).length = hostLen D c i := by
  simp [hostShards]

theorem hostShards_get {D c i l : Nat} {sh : Nat → σ} {s : σ} (hc : 0 < c) (h : (hostShards D c i sh)[l]? = some s) :
    l * c + i < D ∧ s = sh (l * c + i) := by
  have hlt := lt_of_getElem?_some h
  unfold hostShards at *
  rw [List.length_map, List.length_range] at hlt
  rw [List.getElem?_map, List.getElem?_range hlt] at h
  cases h
  exact ⟨(lt_hostLen hc).1 hlt, rfl⟩

theorem usedUp_host {C : Type} {D c i cycle : Nat} (hc : 0 < c) (hi : i < c) {sh : Nat → ShardState C} (h : UsedUpFirst cycle c (dirOf D sh)) :
    ∀ d s, (hostShards D c i sh)[d]? = some s → s.exhausted = true →
      d < shardNext (min cycle (hostLen D c i)) (hostShards D c i sh) := by
  intro d s hd hx
  obtain ⟨hD, rfl⟩ := hostShards_get hc hd
  obtain ⟨a, h1, h2, h3, h4⟩ := h (d * c + i) (sh (d * c + i)) (by unfold dirOf; rw [if_pos hD]) hx
  have hmod : (d * c + i) % c = i := by rw [Nat.add_comm, Nat.add_mul_mod_self_right, Nat.mod_eq_of_lt hi]
  rw [hmod] at h2 h4
  have hdm := Nat.div_add_mod a c
  rw [h2] at hdm
  have ha : a / c * c + i = a := by rw [Nat.mul_comm]; exact hdm
  have haD : a < D := by
    by_contra hcon
    simp [unfinished, dirOf, hcon] at h3
  have hax : (sh a).exhausted = false := by
    simpa [unfinished, dirOf, haD] using h3
  have hlen : a / c < hostLen D c i := (lt_hostLen hc).2 (by rw [ha]; exact haD)
  have hget : (hostShards D c i sh)[a / c]? = some (sh a) := by
    unfold hostShards
    rw [List.getElem?_map, List.getElem?_range hlen, Option.map_some, ha]
  have hda : d < a / c := by
    by_contra hcon
    have : a / c * c ≤ d * c := Nat.mul_le_mul_right c (by omega)
    omega
  have hmem : (sh a, a / c) ∈ activeShards (hostShards D c i sh) := mem_active.2 ⟨hget, hax⟩
  have hcount : ((activeShards (hostShards D c i sh)).filter (fun r => decide (r.2 < a / c))).length < min cycle (hostLen D c i) := by
    have hs : ((activeShards (hostShards D c i sh)).filter (fun r => decide (r.2 < a / c))).Pairwise (fun x y => x.2 < y.2) :=
      active_sorted.filter _
    rw [Nat.lt_min]
    constructor
    · refine Nat.lt_of_le_of_lt ?_ h4
      have hnd : (((activeShards (hostShards D c i sh)).filter (fun r => decide (r.2 < a / c))).map (fun r => r.2 * c + i)).Nodup := by
        refine List.pairwise_map.2 (hs.imp ?_)
        intro x y hxy e
        have : x.2 * c < y.2 * c := Nat.mul_lt_mul_of_pos_right hxy hc
        omega
      have := (List.subperm_of_subset hnd (l₂ := (List.range a).filter (fun b => b % c = i ∧ unfinished (dirOf D sh) b = true)) (by
        intro b hb
        obtain ⟨r, hr, rfl⟩ := List.mem_map.1 hb
        rw [List.mem_filter] at hr
        obtain ⟨hr1, hr2⟩ := hr
        obtain ⟨g1, g2⟩ := mem_active.1 hr1
        obtain ⟨g3, g4⟩ := hostShards_get hc g1
        rw [List.mem_filter, List.mem_range]
        have hlt : r.2 < a / c := by simpa using hr2
        refine ⟨?_, ?_⟩
        · have : (r.2 + 1) * c ≤ a / c * c := Nat.mul_le_mul_right c hlt
          rw [Nat.add_mul] at this
          omega
        · have hm : (r.2 * c + i) % c = i := by rw [Nat.add_comm, Nat.add_mul_mod_self_right, Nat.mod_eq_of_lt hi]
          simp [hm, unfinished, dirOf, g3, ← g4, g2])).length_le
      rw [List.length_map] at this
      exact this
    · have hnd : (((activeShards (hostShards D c i sh)).filter (fun r => decide (r.2 < a / c))).map (·.2)).Nodup :=
        List.pairwise_map.2 (hs.imp (fun h e => by omega))
      have := (List.subperm_of_subset hnd (l₂ := List.range (a / c)) (by
        intro b hb
        obtain ⟨r, hr, rfl⟩ := List.mem_map.1 hb
        rw [List.mem_filter] at hr
        rw [List.mem_range]
        simpa using hr.2)).length_le
      rw [List.length_map, List.length_range] at this
      omega
  exact Nat.lt_trans hda (lt_shardNext (active_take_of_count hmem hcount))

/-! ### Hosts -/

theorem elasticRun_eq {g : IterFam α} {n cycle hosts host F m : Nat} {dir : Option (Nat → Option (ShardState g.C))} {s s' : ILState g.S g.C}
    {rs : List (Res α)} (h1 : elasticStart g n cycle hosts host F dir = some s)
    (h2 : runNexts (interleaveIter g n cycle false) F m s = some (s', rs)) :
    elasticRun g n cycle hosts host F dir m = some (rs, (ilGetShards g n (min cycle n) s').2) := by
  simp only [elasticRun, h1, Option.bind_eq_bind, Option.bind_some]
  erw [h2]
  rfl

theorem elasticStart_some {g : IterFam α} {n cycle hosts host F : Nat} {dir : Nat → Option (ShardState g.C)} {s : ILState g.S g.C}
    {states : List (ShardState g.C)} (h1 : (readFiles dir hosts F host).map orderStates = some states)
    (h2 : ilSetShards g n (min cycle n) false F (ilInit g.S g.C) states = some (s, none)) :
    elasticStart g n cycle hosts host F (some dir) = some s := by
  cases hr : readFiles dir hosts F host with
  | none => rw [hr] at h1; cases h1
  | some files =>
    rw [hr] at h1
    have ho : orderStates files = states := Option.some.inj h1
    simp only [elasticStart, hr, Option.bind_eq_bind, Option.bind_some, ho, h2]

/-- A checkpoint from which what is left of dataset `d` is `rest d`. -/
structure DirAt {f : IterFam α} (xs : Nat → List (Py α)) (Ck : Nat → f.C → Nat → Prop) (D : Nat) (sh : Nat → ShardState f.C)
    (rest : Nat → List (Py α)) : Prop where
  state : ∀ d, d < D → ∃ c, (sh d).state = some c ∧ ((sh d).exhausted = false → ∃ p, Ck d c p ∧ rest d = (xs d).drop p)
  over : ∀ d, d < D → (sh d).exhausted = true → rest d = []

/-- Where a phase starts: nothing saved, or a checkpoint that can be restored. -/
def StartAt {f : IterFam α} (xs : Nat → List (Py α)) (Ck : Nat → f.C → Nat → Prop) (D : Nat)
    (rest : Nat → List (Py α)) : Option (Nat → Option (ShardState f.C)) → Prop
  | none => ∀ d, d < D → rest d = xs d
  | some dir => ∃ sh, dir = dirOf D sh ∧ DirAt (f := f) xs Ck D sh rest

section
variable {f : IterFam α} {xs : Nat → List (Py α)} {D cycle c i : Nat}
  {At : Nat → f.S → Nat → Prop} {Ck : Nat → f.C → Nat → Prop}
  (hsim : ∀ d, d < D → SimWhen (fun _ => false) (f.iter d) (xs d) true (At d) (Ck d)) (hcyc : 0 < cycle) (hc : 0 < c) (hcD : c ≤ D)

include hsim hcyc hc hcD

theorem host_ok (hi : i < c) {dir : Option (Nat → Option (ShardState f.C))} {rest : Nat → List (Py α)}
    (hst : StartAt (f := f) xs Ck D rest dir) (hgood : ∀ d, dir = some d → UsedUpFirst cycle c d) (m : Nat) :
    ∃ (t : List (Nat × Py α)) (shards : List (ShardState f.C)),
      Ev (fun F => elasticHost f D cycle c i F dir m = some (asResults m t, shards)) ∧ t.length ≤ m ∧
      (∀ q ∈ t, q.1 < D ∧ q.1 % c = i) ∧ shards.length = hostLen D c i ∧
      ∀ l s, shards[l]? = some s → ∃ rest', rest (l * c + i) = ofDataset (l * c + i) t ++ rest' ∧
        (t.length < m → rest' = []) ∧ (s.exhausted = true → rest' = []) ∧
        ∃ k, s.state = some k ∧ (s.exhausted = false → ∃ p, Ck (l * c + i) k p ∧ rest' = (xs (l * c + i)).drop p) := by
  let g := f.host c i
  let xs' : Nat → List (Py α) := fun l => xs (l * c + i)
  let At' : Nat → g.S → Nat → Prop := fun l => At (l * c + i)
  let Ck' : Nat → g.C → Nat → Prop := fun l => Ck (l * c + i)
  generalize hn : hostLen D c i = n
  have hsim' : ∀ l, l < n → SimWhen (fun _ => false) (g.iter l) (xs' l) true (At' l) (Ck' l) :=
    fun l hl => hsim (l * c + i) ((lt_hostLen hc).1 (by rw [hn]; exact hl))
  have hn0 : 0 < n := by
    rw [← hn]
    exact (lt_hostLen hc).2 (by omega)
  generalize hLe : min cycle n = L
  have hL : 0 < L := by omega
  have hLn : L ≤ n := by omega
  have hEn : ∀ d k, d < n → endCk xs' Ck' d k → (fun (_ : Nat) (_ : g.C) => True) d k := fun _ _ _ _ => trivial
  -- the iterator to read from
  have hbegin : ∃ (s : ILState g.S g.C) (A : AIL), Ev (fun F => elasticStart g n cycle c i F dir = some s) ∧
      ILRel xs' true At' Ck' (fun _ _ => True) false n L false s A ∧ AWF n L A ∧ A.nextDs ≤ n ∧
      ∀ l, l < n → Left xs' L A l (rest (l * c + i)) := by
    cases dir with
    | none =>
      refine ⟨ilInit g.S g.C, aStart L, Ev.of_forall (fun F => rfl), il_init (f := g) hL, aStart_wf hL, hLn, ?_⟩
      · intro l hl
        rw [hst _ ((lt_hostLen hc).1 (by rw [hn]; exact hl))]
        exact aStart_left xs'
    | some dir =>
      obtain ⟨sh, rfl, hdir⟩ := hst
      have hover := usedUp_host hc hi (hgood _ rfl)
      rw [hn, hLe] at hover
      -- positions of the states
      have hposex : ∀ l, ∃ p, l < n → (sh (l * c + i)).exhausted = false →
          ∃ k, (sh (l * c + i)).state = some k ∧ Ck' l k p ∧ rest (l * c + i) = (xs' l).drop p := by
        intro l
        by_cases h : l < n ∧ (sh (l * c + i)).exhausted = false
        · obtain ⟨k, h1, h2⟩ := hdir.state _ ((lt_hostLen hc).1 (by rw [hn]; exact h.1))
          obtain ⟨p, h3, h4⟩ := h2 h.2
          exact ⟨p, fun _ _ => ⟨k, h1, h3, h4⟩⟩
        · exact ⟨0, fun h1 h2 => absurd ⟨h1, h2⟩ h⟩
      obtain ⟨pos, hpos⟩ := Classical.axiomOfChoice hposex
      have hsh : ShardsAt (f := g) Ck' n pos (hostShards D c i sh) := by
        refine ⟨(hostShards_length (σ := ShardState f.C)).trans hn, ?_, ?_⟩
        · intro d s hd hx
          obtain ⟨h1, rfl⟩ := hostShards_get hc hd
          obtain ⟨k, e1, e2, _⟩ := hpos d (by rw [← hn]; exact (lt_hostLen hc).2 h1) hx
          exact ⟨k, e1, e2⟩
        · intro d s hd hx
          obtain ⟨h1, rfl⟩ := hostShards_get (σ := ShardState f.C) hc hd
          obtain ⟨k, e1, _⟩ := hdir.state _ h1
          exact ⟨k, e1⟩
      have hrel := shardCk_rel (f := g) (xs := xs') hsh hL hLn hover
      obtain ⟨s', e, hrel'⟩ := il_set hsim' hLn hEn (keep := false) (tn' := false) (s := ilInit g.S g.C) hrel
        (fun _ _ _ _ _ => Or.inr rfl) (fun j d o h => by cases h) (fun j _ => ⟨Or.inl rfl, Or.inl rfl⟩)
      refine ⟨s', _, (e.ge (n + 1)).mono ?_, hrel', shardMachine_wf (n := n) hL, hrel.nds_le, ?_⟩
      · rintro F ⟨hF, e⟩
        exact elasticStart_some (orderStates_readFiles (D := D) (i := i) (F := F) hc sh (by omega)) (by rw [hLe]; exact e)
      · intro l hl
        have hD := (lt_hostLen hc).1 (show l < hostLen D c i by rw [hn]; exact hl)
        have hget : (hostShards D c i sh)[l]? = some (sh (l * c + i)) := by
          unfold hostShards
          rw [hn, List.getElem?_map, List.getElem?_range hl, Option.map_some]
        have hleft := shardMachine_left (f := g) (xs := xs') hsh hL hLn hover hget
        cases hx : (sh (l * c + i)).exhausted with
        | true =>
          rw [hx, if_pos rfl] at hleft
          rw [hdir.over _ hD hx]
          exact hleft
        | false =>
          obtain ⟨k, _, _, h3⟩ := hpos l hl hx
          rw [hx, if_neg (by simp)] at hleft
          rw [h3]
          exact hleft
  obtain ⟨s, A, hev, hrel, hw, hle, hleft⟩ := hbegin
  obtain ⟨t, ht⟩ := aTrace_exists (xs := xs') (ended := true) (n := n) hL _ A hw (Or.inl rfl) (Nat.le_refl _)
  obtain ⟨s', A', hnx, hrel', ht', hw', hle'⟩ := runNexts_ok hsim' hLn hEn false hLe hL m hrel ht hw hle
  obtain ⟨pos, hsh, hsl⟩ := getShards_ok hsim' hLn hEn hrel' hL
  obtain ⟨c1, c2, _⟩ := ht.contents hL hw hle
  obtain ⟨_, c2', _⟩ := ht'.contents hL hw' hle'
  refine ⟨(t.take m).map (fun q => (q.1 * c + i, q.2)), (ilGetShards g n L s').2, (hev.and hnx).mono ?_, ?_, ?_, hsh.len, ?_⟩
  · rintro F ⟨e1, e2⟩
    have e3 := elasticRun_eq e1 e2
    rw [hLe] at e3
    unfold elasticHost
    rw [hn]
    refine e3.trans ?_
    congr 2
    unfold asResults
    rw [List.map_map, List.length_map, List.length_take]
    congr 1
    congr 1
    omega
  · rw [List.length_map, List.length_take]; omega
  · intro q hq
    obtain ⟨r, hr, rfl⟩ := List.mem_map.1 hq
    have := c1 r.1 r.2 (List.mem_of_mem_take hr)
    refine ⟨(lt_hostLen hc).1 (by rw [hn]; exact this), ?_⟩
    dsimp only
    rw [Nat.add_comm, Nat.add_mul_mod_self_right, Nat.mod_eq_of_lt hi]
  · intro l s hs
    have hl : l < n := Nat.lt_of_lt_of_eq (lt_of_getElem?_some hs) hsh.len
    have e1 := c2 l _ hl (hleft l hl)
    rw [if_pos rfl] at e1
    obtain ⟨l', hl'⟩ := left_total xs' L A' l
    have e2 := c2' l l' hl hl'
    rw [if_pos rfl] at e2
    have e3 := hsl l l' s hl' hs
    have hof : ofDataset (l * c + i) ((t.take m).map (fun q => (q.1 * c + i, q.2))) = ((t.take m).filter (fun q => q.1 = l)).map (·.2) := by
      unfold ofDataset
      rw [List.filter_map, List.map_map]
      congr 1
      refine List.filter_congr ?_
      intro q _
      simp only [Function.comp_def, decide_eq_decide]
      constructor
      · intro h
        exact Nat.eq_of_mul_eq_mul_right hc (by omega)
      · intro h; rw [h]
    refine ⟨l', ?_, ?_, ?_, ?_⟩
    · rw [hof, ← e1, ← e2, ← List.map_append, ← List.filter_append, List.take_append_drop]
    · intro hlt
      rw [List.length_map, List.length_take] at hlt
      rw [List.drop_eq_nil_of_le (by omega)] at e2
      exact e2.symm
    · intro hx
      rw [hx] at e3
      exact e3
    · cases hx : s.exhausted with
      | true =>
        obtain ⟨k, hk⟩ := hsh.over l s hs hx
        exact ⟨k, hk, fun h => by cases h⟩
      | false =>
        obtain ⟨k, hk, hck⟩ := hsh.live l s hs hx
        rw [hx] at e3
        exact ⟨k, hk, fun _ => ⟨pos l, hck, e3⟩⟩

end

end Grain
