import Verif.Iter.IndexSpec
import Verif.Iter.Prefetch
/-
Simulations for `get_next_index` and `set_next_index`.
-/
namespace Grain

structure IdxSim (it : Iter α) (vs : List α) (ended E : Bool) (At : it.S → Nat → Prop) (Ck : it.C → Nat → Prop) : Prop where
  sim : Sim it (vs.map Except.ok) ended At Ck
  getIdx : ∀ {s n}, At s n → n < vs.length ∨ (E = true ∧ ended = true) → it.getIdx s = .ok n
  setIdx : ∀ {s n} {i : Nat}, At s n → i < vs.length ∨ (E = true ∧ ended = true ∧ i = vs.length) →
    ∃ s', it.setIdx s i = (s', none) ∧ At s' i

def IdxResumes (it : Iter α) (vs : List α) (ended E : Bool) : Prop :=
  ∃ (At : it.S → Nat → Prop) (Ck : it.C → Nat → Prop), IdxSim it vs ended E At Ck

theorem idx_run {it : Iter α} {vs : List α} {ended E : Bool} {At : it.S → Nat → Prop} {Ck : it.C → Nat → Prop}
    (h : IdxSim it vs ended E At Ck) : ∀ (ops : List IdxOp) (s : it.S) (pos : Nat) (saved : List it.C) (sp : List Nat)
    (outs : List (Res α ⊕ Int)), At s pos → saved.length = sp.length →
    (∀ (i : Nat) c p, saved[i]? = some c → sp[i]? = some p → Ck c p) →
    idxSpec vs ended E pos sp ops = some outs → Ev (fun F => idxRun it F s saved ops = some outs) := by
  have sim := h.sim
  have hl : (vs.map (Except.ok (ε := Err))).length = vs.length := by simp
  have look : ∀ (saved : List it.C) (sp : List Nat), saved.length = sp.length →
      (∀ (i : Nat) c p, saved[i]? = some c → sp[i]? = some p → Ck c p) → ∀ (k p : Nat), sp[k]? = some p → ∃ c, saved[k]? = some c ∧ Ck c p := by
    intro saved sp hlen hck k p hp
    have hk := getElem?_lt hp
    have hc : saved[k]? = some (saved[k]'(by omega)) := List.getElem?_eq_getElem _
    exact ⟨_, hc, hck k _ p hc hp⟩
  intro ops
  induction ops with
  | nil =>
    intro s pos saved sp outs _ _ _ h
    simp only [idxSpec] at h
    exact Ev.of_forall (fun F => by simpa [idxRun] using h)
  | cons op ops ih =>
    intro s pos saved sp outs hat hlen hck hsp
    match op with
    | .getIndex =>
      simp only [idxSpec] at hsp
      split at hsp
      · rename_i hc
        cases hr : idxSpec vs ended E pos sp ops with
        | none => rw [hr] at hsp; cases hsp
        | some rest =>
          rw [hr] at hsp
          cases hsp
          refine (ih s pos saved sp rest hat hlen hck hr).mono ?_
          intro F e
          simp only [idxRun, h.getIdx hat hc, e, Option.map_some]
      · cases hsp
    | .setIndex i =>
      simp only [idxSpec] at hsp
      split at hsp
      · rename_i hc
        obtain ⟨s', h1, h2⟩ := h.setIdx hat hc
        refine (ih s' i saved sp outs h2 hlen hck hsp).mono ?_
        intro F e
        simp only [idxRun, h1, e]
      · cases hsp
    | .op .next =>
      simp only [idxSpec, Option.bind_eq_bind] at hsp
      cases ho : outcome (vs.map Except.ok) ended pos with
      | none => rw [ho] at hsp; cases hsp
      | some r =>
        rw [ho, Option.bind_some] at hsp
        cases hr : idxSpec vs ended E (min vs.length (pos + 1)) sp ops with
        | none => rw [hr] at hsp; cases hsp
        | some rest =>
          rw [hr, Option.bind_some] at hsp
          cases hsp
          have hb := sim.bound hat
          rw [hl] at hb
          by_cases hlt : pos < vs.length
          · have hx : (vs.map (Except.ok (ε := Err)))[pos]? = some (.ok vs[pos]) := by
              rw [List.getElem?_map, List.getElem?_eq_getElem hlt]; rfl
            rw [outcome_lt hx] at ho
            cases ho
            obtain ⟨s', h1, h2⟩ := sim.next_item hat hx
            rw [Nat.min_eq_right (by omega)] at hr
            refine h1.mono₂ (ih s' (pos + 1) saved sp rest h2 hlen hck hr) ?_
            intro F e1 e2
            simp only [idxRun, e1, Option.bind_eq_bind, Option.bind_some, e2]
          · have hpos : pos = vs.length := by omega
            subst hpos
            unfold outcome at ho
            rw [List.getElem?_eq_none (by rw [hl])] at ho
            cases ended with
            | false => simp at ho
            | true =>
              simp at ho
              subst ho
              obtain ⟨s', h1, h2⟩ := sim.next_stop (hl.symm ▸ hat) rfl
              rw [Nat.min_eq_left (by omega)] at hr
              rw [hl] at h2
              refine h1.mono₂ (ih s' _ saved sp rest h2 hlen hck hr) ?_
              intro F e1 e2
              simp only [idxRun, e1, Option.bind_eq_bind, Option.bind_some, e2]
    | .op .save =>
      simp only [idxSpec] at hsp
      obtain ⟨g1, g2⟩ := sim.get hat
      refine (ih (it.get s).1 pos (saved ++ [(it.get s).2]) (sp ++ [pos]) outs g1 (by simp [hlen]) ?_ hsp).mono ?_
      · intro i c p hc hp
        by_cases hi : i < saved.length
        · rw [List.getElem?_append_left hi] at hc
          rw [List.getElem?_append_left (by omega)] at hp
          exact hck i c p hc hp
        · rw [List.getElem?_append_right (by omega)] at hc
          rw [List.getElem?_append_right (by omega)] at hp
          by_cases hi' : i - saved.length = 0
          · rw [hi'] at hc
            rw [← hlen, hi'] at hp
            cases hc; cases hp
            exact g2
          · rw [List.getElem?_eq_none (by simp; omega)] at hc
            cases hc
      · intro F e
        simpa [idxRun] using e
    | .op (.restore k) =>
      simp only [idxSpec, Option.bind_eq_bind] at hsp
      cases hp : sp[k]? with
      | none => rw [hp] at hsp; cases hsp
      | some p =>
        rw [hp, Option.bind_some] at hsp
        split at hsp
        · rename_i hk
          obtain ⟨c, hc, hcp⟩ := look saved sp hlen hck k p hp
          obtain ⟨s', h1, h2⟩ := sim.set hat hcp (by rw [hl]; exact hk)
          refine h1.mono₂ (ih s' p saved sp outs h2 hlen hck hsp) ?_
          intro F e1 e2
          simp only [idxRun, hc, e1, Option.bind_eq_bind, Option.bind_some, e2]
        · cases hsp
    | .op (.fresh k) =>
      simp only [idxSpec, Option.bind_eq_bind] at hsp
      cases hp : sp[k]? with
      | none => rw [hp] at hsp; cases hsp
      | some p =>
        rw [hp, Option.bind_some] at hsp
        split at hsp
        · rename_i hk
          obtain ⟨c, hc, hcp⟩ := look saved sp hlen hck k p hp
          obtain ⟨s', h1, h2⟩ := sim.set sim.init hcp (by rw [hl]; exact hk)
          refine h1.mono₂ (ih s' p saved sp outs h2 hlen hck hsp) ?_
          intro F e1 e2
          simp only [idxRun, hc, e1, Option.bind_eq_bind, Option.bind_some, e2]
        · cases hsp

theorem okCount_ok (vs : List α) (n : Nat) : okCount (vs.map (Except.ok (ε := Err))) n = min n vs.length := by
  unfold okCount
  rw [List.filter_eq_self.2, List.length_take, List.length_map]
  intro a ha
  obtain ⟨v, _, rfl⟩ := List.mem_map.1 (List.mem_of_mem_take ha)
  rfl

theorem IdxResumes.take {p : Iter α} {vs : List α} {ended E : Bool} (h : IdxResumes p vs ended E) (n : Nat) :
    IdxResumes p (vs.take n) false E := by
  obtain ⟨At, Ck, h⟩ := h
  have hl := h.sim
  refine ⟨fun s m => At s m ∧ m ≤ (vs.take n).length, fun c m => Ck c m ∧ m ≤ (vs.take n).length, ⟨?_, ?_, ?_⟩⟩
  · refine { init := ⟨hl.init, by omega⟩, bound := fun hs => by rw [List.length_map]; exact hs.2, next_item := ?_, next_stop := ?_,
             get := ?_, set := ?_, ck_bound := fun hs => by rw [List.length_map]; exact hs.2 }
    · rintro s m r ⟨hs, _⟩ hr
      have hlt := getElem?_lt hr
      rw [List.map_take, List.getElem?_take] at hr
      rw [List.length_map] at hlt
      split at hr
      · obtain ⟨s', h1, h2⟩ := hl.next_item hs hr
        exact ⟨s', h1, h2, by omega⟩
      · cases hr
    · intro s _ hc
      cases hc
    · rintro s m ⟨hs, hm⟩
      exact ⟨⟨(hl.get hs).1, hm⟩, (hl.get hs).2, hm⟩
    · rintro s k c m ⟨hs, hk⟩ ⟨hc, hm⟩ hlt
      have hlt' := hlt.resolve_right (by simp)
      rw [List.length_map, List.length_take] at hlt'
      obtain ⟨s', h1, h2⟩ := hl.set hs hc (Or.inl (by rw [List.length_map]; omega))
      exact ⟨s', h1, h2, hm⟩
  · rintro s m ⟨hs, hm⟩ hc
    have hlt := hc.resolve_right (by simp)
    rw [List.length_take] at hlt
    exact h.getIdx hs (.inl (by omega))
  · rintro s m i ⟨hs, hm⟩ hc
    have hlt := hc.resolve_right (by simp)
    obtain ⟨s', h1, h2⟩ := h.setIdx hs (i := i) (.inl (by rw [List.length_take] at hlt; omega))
    exact ⟨s', h1, h2, by omega⟩

theorem keepElems_dense {allow : Bool} {vs : List (Option α)} (hd : ∀ v ∈ vs, (allow || v.isSome) = true) : keepElems allow vs = vs :=
  List.filter_eq_self.2 hd

theorem prefetch_idx {ds : MapDs α} {vs : List (Option α)} {allow : Bool} (size threads : Nat) (hlen : vs.length = ds.len)
    (hv : ∀ k (hk : k < vs.length), ds.getitem k = .ok vs[k]) (hd : ∀ v ∈ vs, (allow || v.isSome) = true) :
    IdxResumes (prefetchIter size threads allow none ds) vs true true := by
  have sim := prefetchIter_sim (allow := allow) size threads true [] (by simp) (by omega) hv (fun _ => ⟨hlen, rfl⟩) (by simp)
  simp only [List.map_nil, List.append_nil, keepElems_dense hd, List.length_nil] at sim
  have key : ∀ {s : PrefetchState} {m}, PfAt ds.len allow vs 0 s m → s.returned = m ∧ m ≤ vs.length ∧ PfBuf ds.len s m := by
    rintro s m (⟨r, h1, h2, h3, h4, h5⟩ | ⟨_, h, _⟩)
    · have hdd : ∀ v ∈ vs.drop r, (allow || v.isSome) = true := fun v hv => hd v (List.mem_of_mem_drop hv)
      rw [keepElems_dense hd] at h4 h5
      rw [keepElems_dense hdd] at h5
      have := congrArg List.length h5
      rw [List.length_drop, List.length_drop] at this
      have : r = m := by omega
      subst this
      exact ⟨h1, h2, h3⟩
    · omega
  refine ⟨_, _, sim, ?_, ?_⟩
  · intro s n hs _
    show Except.ok s.returned = _
    rw [(key hs).1]
  · intro s n i hs hi
    have hi' : i ≤ vs.length := by
      rcases hi with hi | ⟨_, _, hi⟩ <;> omega
    have hne : ¬ ((i : Int) < 0 ∨ (i : Int) > (ds.len : Int)) := by omega
    refine ⟨{ s with returned := i, buffered := i, buffer := [] }, ?_, ?_⟩
    · show prefetchSet ds.len s i = _
      simp only [prefetchSet, if_neg hne]
      rfl
    · refine .inl ⟨i, rfl, hi', ⟨rfl, by simp, by simp; omega, (key hs).2.2.2.2.2⟩, by rw [keepElems_dense hd]; exact hi', ?_⟩
      rw [keepElems_dense hd, keepElems_dense (fun v hv => hd v (List.mem_of_mem_drop hv))]

theorem map_idx {p : Iter (Option α)} {vs : List (Option α)} {ended E : Bool} (h : IdxResumes p vs ended E) {f : α → Py (Option β)}
    {g : α → Option β} (hf : ∀ a, some a ∈ vs → f a = .ok (g a)) : IdxResumes (mapIter f p) (vs.map (fun x => x.bind g)) ended E := by
  obtain ⟨At, Ck, h⟩ := h
  have sim := mapIter_sim (f := f) h.sim
  have he : (vs.map (Except.ok (ε := Err))).map (mapOutcome f) = (vs.map (fun x => x.bind g)).map Except.ok := by
    rw [List.map_map, List.map_map]
    apply List.map_congr_left
    intro x hx
    cases x with
    | none => rfl
    | some a => exact hf a hx
  rw [he] at sim
  refine ⟨At, Ck, sim, ?_, ?_⟩
  · intro s n hs hn
    rw [List.length_map] at hn
    exact h.getIdx hs hn
  · intro s n i hs hi
    rw [List.length_map] at hi
    exact h.setIdx hs hi

theorem countedMap_ok {F : Nat → α → Py β} : ∀ (vs : List α) (k : Nat) (G : Nat → α → β),
    (∀ n a, vs[n]? = some a → F (k + n) a = .ok (G n a)) →
    countedMap F k (vs.map Except.ok) = (vs.mapIdx G).map Except.ok
  | [], _, _, _ => rfl
  | v :: vs, k, G, h => by
    have h0 : F k v = .ok (G 0 v) := h 0 v rfl
    rw [List.map_cons, countedMap, h0, List.mapIdx_cons, List.map_cons]
    simp only
    congr 1
    exact countedMap_ok vs (k + 1) (fun n => G (n + 1)) (fun n a hn => by
      rw [show k + 1 + n = k + (n + 1) by omega]
      exact h (n + 1) a hn)

/-- Common part of random_map and map_with_index. -/
theorem counted_idx {p : Iter α} {q : Iter β} {vs : List α} {ws : List β} {ended E : Bool} {At : p.S → Nat → Prop} {Ck : p.C → Nat → Prop}
    (h : IdxSim p vs ended E At Ck) (st : q.S = (p.S × Nat)) {Ck' : q.C → Nat → Prop}
    (hlen : ws.length = vs.length)
    (sim : Sim q (ws.map Except.ok) ended (fun s n => At (st ▸ s : p.S × Nat).1 n ∧ (st ▸ s : p.S × Nat).2 = okCount (ws.map (Except.ok (ε := Err))) n) Ck')
    (hget : ∀ s, q.getIdx s = .ok ((st ▸ s : p.S × Nat).2 : Int))
    (hset : ∀ s i ps, p.setIdx (st ▸ s : p.S × Nat).1 i = (ps, none) → ∃ s', q.setIdx s i = (s', none) ∧ (st ▸ s' : p.S × Nat) = (ps, i.toNat)) :
    IdxResumes q ws ended E := by
  refine ⟨_, _, sim, ?_, ?_⟩
  · rintro s n ⟨h1, h2⟩ hn
    rw [hget, h2, okCount_ok]
    have hb := h.sim.bound h1
    rw [List.length_map] at hb
    rw [Nat.min_eq_left (by omega)]
  · rintro s n i ⟨h1, h2⟩ hi
    rw [hlen] at hi
    obtain ⟨ps, e1, e2⟩ := h.setIdx h1 hi
    obtain ⟨s', e3, e4⟩ := hset s i ps e1
    refine ⟨s', e3, ?_, ?_⟩
    · rw [e4]; exact e2
    · rw [e4, okCount_ok, hlen]
      show (i : Int).toNat = _
      have : i ≤ vs.length := by rcases hi with hi | ⟨_, _, hi⟩ <;> omega
      omega

theorem randomMap_idx {p : Iter (Option α)} {vs : List (Option α)} {ended E : Bool} (h : IdxResumes p vs ended E)
    {f : α → Nat → Py (Option β)} {i c : Nat} {g : Nat → α → Option β}
    (hf : ∀ (n : Nat) a, vs[n]? = some (some a) → f a (i + n * c) = .ok (g n a)) :
    IdxResumes (randomMapIter f i c p) (vs.mapIdx (fun n x => x.bind (g n))) ended E := by
  obtain ⟨At, Ck, h⟩ := h
  have sim := randomMapIter_sim (f := f) (i := i) (c := c) h.sim
  have he : countedMap (randomMapAt f i c) 0 (vs.map Except.ok) = (vs.mapIdx (fun n x => x.bind (g n))).map Except.ok := by
    apply countedMap_ok
    intro n x hx
    rw [Nat.zero_add]
    cases x with
    | none => rfl
    | some a => exact hf n a hx
  rw [he] at sim
  refine counted_idx (q := randomMapIter f i c p) h rfl (by simp) sim (fun _ => rfl) ?_
  intro s k ps e
  refine ⟨(ps, k.toNat), ?_, rfl⟩
  change p.setIdx s.1 k = _ at e
  simp only [randomMapIter, e]

theorem mapWithIndex_idx {p : Iter (Option α)} {vs : List (Option α)} {ended E : Bool} (h : IdxResumes p vs ended E)
    {f : Nat → α → Py (Option β)} {g : Nat → α → Option β} (hf : ∀ (n : Nat) a, vs[n]? = some (some a) → f n a = .ok (g n a)) :
    IdxResumes (mapWithIndexIter f p) (vs.mapIdx (fun n x => x.bind (g n))) ended E := by
  obtain ⟨At, Ck, h⟩ := h
  have sim := mapWithIndexIter_sim (f := f) h.sim
  have he : countedMap (mapWithIndexAt f) 0 (vs.map Except.ok) = (vs.mapIdx (fun n x => x.bind (g n))).map Except.ok := by
    apply countedMap_ok
    intro n x hx
    rw [Nat.zero_add]
    cases x with
    | none => rfl
    | some a => exact hf n a hx
  rw [he] at sim
  refine counted_idx (q := mapWithIndexIter f p) h rfl (by simp) sim (fun _ => rfl) ?_
  intro s k ps e
  refine ⟨(ps, k.toNat), ?_, rfl⟩
  change p.setIdx s.1 k = _ at e
  simp only [mapWithIndexIter, e]

theorem limitStream_ok : ∀ (k : Nat) (vs : List α), limitStream k (vs.map Except.ok) = (vs.take k).map (Except.ok (ε := Err))
  | 0, _ => by simp [limitStream]
  | k + 1, [] => by simp [limitStream]
  | k + 1, v :: vs => by simp [limitStream, limitStream_ok k vs]

theorem limit_idx {p : Iter α} {vs : List α} {ended E : Bool} (h : IdxResumes p vs ended E) (k : Nat) :
    IdxResumes (limitIter k p) (vs.take k) (ended || decide (k < vs.length)) (E || decide (k < vs.length)) := by
  obtain ⟨At, Ck, h⟩ := h
  have sim := limitIter_sim (count := k) h.sim
  rw [limitStream_ok] at sim
  have hd : decide (((vs.take k).map (Except.ok (ε := Err))).length < (vs.map (Except.ok (ε := Err))).length) = decide (k < vs.length) := by
    rw [List.length_map, List.length_map, List.length_take]
    congr 1
    exact propext ⟨fun h => by omega, fun h => by omega⟩
  rw [hd] at sim
  refine ⟨_, _, sim, ?_, ?_⟩
  · rintro s n ⟨h1, h2, h3⟩ _
    show Except.ok ((s.2 : Nat) : Int) = _
    rw [List.length_map] at h1
    rw [h3, okCount_ok, Nat.min_eq_left h1]
  · rintro s n i ⟨h1, h2, h3⟩ hi
    have hile : i ≤ (vs.take k).length := by rcases hi with hi | ⟨_, _, hi⟩ <;> omega
    have hl := hile
    rw [List.length_take] at hl
    have hi' : i < vs.length ∨ (E = true ∧ ended = true ∧ i = vs.length) := by
      rcases hi with hi | ⟨ha, hb, hc⟩
      · rw [List.length_take] at hi; left; omega
      · rw [List.length_take] at hc
        by_cases hk : k < vs.length
        · left; omega
        · rw [decide_eq_false hk, Bool.or_false] at ha hb
          right; exact ⟨ha, hb, by omega⟩
    obtain ⟨ps, e1, e2⟩ := h.setIdx h2 hi'
    refine ⟨(ps, i), ?_, by rw [List.length_map]; exact hile, e2, ?_⟩
    · simp only [limitIter, e1]
      rfl
    · rw [okCount_ok, Nat.min_eq_left hile]

theorem batch_idx {p : Iter α} {vs : List α} {ended E : Bool} (h : IdxResumes p vs ended E) (b : Nat) (hb : 0 < b) (drop : Bool)
    {f : List α → Py β} {g : List α → β} (hf : ∀ l, f l = .ok (g l)) :
    IdxResumes (batchIter b drop f p) ((List.range (batchCount vs.length b (drop || !ended))).map (fun i => g (group vs b i))) ended
      (E && decide (b ∣ vs.length)) := by
  obtain ⟨At, Ck, h⟩ := h
  have sim := batchIter_sim h.sim b hb drop f
  have he : batchStream b drop f vs ended =
      ((List.range (batchCount vs.length b (drop || !ended))).map (fun i => g (group vs b i))).map Except.ok := by
    unfold batchStream
    rw [List.map_map]
    apply List.map_congr_left
    intro i _
    exact hf _
  rw [he] at sim
  have hspec := batchCount_spec vs.length b hb (drop || !ended)
  simp only [] at hspec
  generalize hK : batchCount vs.length b (drop || !ended) = K at sim hspec ⊢
  have hlast : ∀ {m}, m < K → m * b < vs.length := by
    intro m hm
    have h3 : (m + 1) * b ≤ K * b := Nat.mul_le_mul_right b hm
    rw [Nat.add_mul, Nat.one_mul] at h3
    cases hd : (drop || !ended) with
    | true => have h1 := (hspec.1 hd).1; omega
    | false =>
      have h1 := (hspec.2 hd).2 (by omega)
      have : m * b ≤ (K - 1) * b := Nat.mul_le_mul_right b (by omega)
      omega
  have hfull : b ∣ vs.length → K * b = vs.length := by
    intro hdv
    obtain ⟨c, hc⟩ := hdv
    rw [hc] at hspec
    have hKc : K = c := by
      cases hd : (drop || !ended) with
      | true =>
        obtain ⟨h1, h2⟩ := hspec.1 hd
        rw [Nat.mul_comm b c] at h1 h2
        have := Nat.le_of_mul_le_mul_right h1 hb
        have := Nat.lt_of_mul_lt_mul_right h2
        omega
      | false =>
        obtain ⟨h1, h2⟩ := hspec.2 hd
        rw [Nat.mul_comm b c] at h1 h2
        have := Nat.le_of_mul_le_mul_right h1 hb
        by_cases hK0 : 0 < K
        · have := Nat.lt_of_mul_lt_mul_right (h2 hK0)
          omega
        · omega
    rw [hKc, hc, Nat.mul_comm]
  refine ⟨_, _, sim, ?_, ?_⟩
  · rintro s m ⟨q, hs, hm, hq⟩ hc
    rw [List.length_map, List.length_range] at hc
    show (do let i ← p.getIdx s; .ok ((i + b - 1) / b)) = _
    have hdone : p.getIdx s = .ok ((m * b : Nat) : Int) := by
      rcases hc with hc | ⟨hE, hend⟩
      · have := hlast hc
        have hqm : q = m * b := by rcases hq with hq | hq <;> omega
        subst hqm
        exact h.getIdx hs (.inl this)
      · rw [Bool.and_eq_true, decide_eq_true_eq] at hE
        have hKb := hfull hE.2
        have hqm : q = m * b := by
          have : m * b ≤ K * b := Nat.mul_le_mul_right b hm
          rcases hq with hq | ⟨hq1, _, hq2⟩
          · omega
          · subst hq1; omega
        subst hqm
        exact h.getIdx hs (.inr ⟨hE.1, hend⟩)
    rw [hdone]
    show Except.ok _ = _
    congr 1
    have : ((m * b : Nat) : Int) + (b : Int) - 1 = ((b - 1 + m * b : Nat) : Int) := by omega
    rw [this, ← Int.natCast_ediv, Nat.add_mul_div_right _ _ hb, Nat.div_eq_of_lt (by omega), Nat.zero_add]
  · rintro s m i ⟨q, hs, hm, hq⟩ hi
    rw [List.length_map, List.length_range] at hi
    have hcond : i * b < vs.length ∨ (E = true ∧ ended = true ∧ i * b = vs.length) := by
      rcases hi with hi | ⟨hE, hend, hi⟩
      · exact .inl (hlast hi)
      · rw [Bool.and_eq_true, decide_eq_true_eq] at hE
        subst hi
        exact .inr ⟨hE.1, hend, hfull hE.2⟩
    obtain ⟨s', e1, e2⟩ := h.setIdx hs hcond
    refine ⟨s', ?_, i * b, e2, ?_, ?_⟩
    · show p.setIdx s ((i : Int) * b) = _
      rw [show (i : Int) * (b : Int) = ((i * b : Nat) : Int) by push_cast; rfl]
      exact e1
    · rcases hi with hi | ⟨_, _, hi⟩ <;> omega
    · left
      rcases hcond with hcond | ⟨_, _, hcond⟩ <;> omega

end Grain
