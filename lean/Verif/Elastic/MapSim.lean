import Verif.Elastic.Spec
import Verif.Elastic.History
/-
Lemmas about elastic map iterators.
-/
namespace Grain

theorem everyNth_drop {c : Nat} (hc : 0 < c) (i n : Nat) (l : List α) : everyNth c i (l.drop (n * c)) = (everyNth c i l).drop n := by
  apply List.ext_getElem?
  intro k
  rw [everyNth_getElem? hc, List.getElem?_drop, List.getElem?_drop, everyNth_getElem? hc]
  congr 1
  rw [Nat.add_mul]
  omega

theorem everyNth_take {c : Nat} (hc : 0 < c) {i : Nat} (hi : i < c) (n : Nat) (l : List α) :
    everyNth c i (l.take (n * c)) = (everyNth c i l).take n := by
  apply List.ext_getElem?
  intro k
  rw [everyNth_getElem? hc, List.getElem?_take, List.getElem?_take, everyNth_getElem? hc]
  by_cases hk : k < n
  · have : k * c + i < n * c := by
      have : (k + 1) * c ≤ n * c := Nat.mul_le_mul_right c hk
      rw [Nat.add_mul] at this
      omega
    rw [if_pos this, if_pos hk]
  · have : ¬ k * c + i < n * c := by
      have : n * c ≤ k * c := Nat.mul_le_mul_right c (by omega)
      omega
    rw [if_neg this, if_neg hk]

theorem everyNth_length_lt {c : Nat} (hc : 0 < c) (i : Nat) (l : List α) (k : Nat) : k < (everyNth c i l).length ↔ k * c + i < l.length := by
  have h := everyNth_getElem? hc i l k
  constructor
  · intro hk
    rw [List.getElem?_eq_getElem hk] at h
    exact getElem?_lt h.symm
  · intro hk
    rw [List.getElem?_eq_getElem hk] at h
    exact getElem?_lt h

theorem group_drop (l : List α) (b q k : Nat) : group (l.drop (q * b)) b k = group l b (q + k) := by
  unfold group
  rw [List.drop_drop, Nat.add_mul]

theorem mapM_map_ok : ∀ (l : List α), (l.map (Except.ok (ε := Err))).mapM id = Except.ok l
  | [] => rfl
  | a :: l => by
    rw [List.map_cons, List.mapM_cons, mapM_map_ok l]
    rfl

theorem group_mem_sub {l : List α} {b k : Nat} : group l b k ⊆ l := fun _ h => List.mem_of_mem_drop (List.mem_of_mem_take h)

theorem group_full {l : List α} {b k : Nat} (hb : 0 < b) (hk : k < l.length / b) : (group l b k).length = b := by
  unfold group
  rw [List.length_take, List.length_drop]
  have : (k + 1) * b ≤ l.length := (Nat.le_div_iff_mul_le hb).1 hk
  rw [Nat.add_mul] at this
  omega

/-- What shard `i` of `c` gives from global index `g` on: the whole batches of every `c`-th element. -/
def shardStream (mk : List α → β) (el : List α) (gb c i g : Nat) : List β :=
  (List.range ((everyNth c i (el.drop g)).length / (gb / c))).map (fun k => mk (group (everyNth c i (el.drop g)) (gb / c) k))

theorem shardStream_drop (mk : List α → β) (el : List α) {gb c : Nat} (hc : 0 < c) (hd : c ∣ gb) (hgb : 0 < gb) (i g q : Nat) :
    shardStream mk el gb c i (g + q * gb) = (shardStream mk el gb c i g).drop q := by
  obtain ⟨b, rfl⟩ := hd
  have hb : 0 < b := by
    rcases Nat.eq_zero_or_pos b with h | h
    · subst h; simp at hgb
    · exact h
  unfold shardStream
  rw [Nat.mul_div_cancel_left b hc, ← List.drop_drop, show q * (c * b) = (q * b) * c by rw [Nat.mul_assoc, Nat.mul_comm b c], everyNth_drop hc,
    List.length_drop]
  generalize everyNth c i (el.drop g) = l
  have hdiv : (l.length - q * b) / b = l.length / b - q := by
    rw [Nat.mul_comm q b, Nat.sub_mul_div]
  rw [hdiv]
  apply List.ext_getElem?
  intro k
  rw [List.getElem?_drop, List.getElem?_map, List.getElem?_map]
  by_cases hk : k < l.length / b - q
  · rw [List.getElem?_range hk, List.getElem?_range (by omega), Option.map_some, Option.map_some, group_drop]
  · rw [List.getElem?_eq_none (by rw [List.length_range]; omega), List.getElem?_eq_none (by rw [List.length_range]; omega)]
    rfl

theorem nexts_sim {it : Iter α} {xs : List (Py α)} {ended : Bool} {At : it.S → Nat → Prop} {Ck : it.C → Nat → Prop} (h : Sim it xs ended At Ck) :
    ∀ (m n : Nat) (s : it.S), At s n → n + m ≤ xs.length →
      ∃ s', Ev (fun F => runNexts it F m s = some (s', ((xs.drop n).take m).map toRes)) ∧ At s' (n + m) := by
  intro m
  induction m with
  | zero => intro n s hs _; exact ⟨s, Ev.of_forall (fun F => by simp [runNexts]), hs⟩
  | succ m ih =>
    intro n s hs hle
    obtain ⟨s1, e1, e2⟩ := h.next_item hs (List.getElem?_eq_getElem (show n < xs.length by omega))
    obtain ⟨s2, e3, e4⟩ := ih (n + 1) s1 e2 (by omega)
    refine ⟨s2, e1.mono₂ e3 ?_, by rw [show n + (m + 1) = n + 1 + m by omega]; exact e4⟩
    intro F f1 f2
    rw [drop_cons_of_lt (show n < xs.length by omega), List.take_succ_cons, List.map_cons]
    simp only [runNexts, f1, f2, Option.bind_eq_bind, Option.bind_some]

theorem shardStream_take (mk : List α → β) (el : List α) {gb c : Nat} (hc : 0 < c) (hd : c ∣ gb) (hgb : 0 < gb) {i : Nat} (hi : i < c) (g k : Nat)
    (hle : g + k * gb ≤ el.length) :
    k ≤ (shardStream mk el gb c i g).length ∧
    (shardStream mk el gb c i g).take k = (List.range k).map (fun q => mk (everyNth c i (globalBatchAt el g gb q))) := by
  obtain ⟨b, rfl⟩ := hd
  have hb : 0 < b := by
    rcases Nat.eq_zero_or_pos b with h | h
    · subst h; simp at hgb
    · exact h
  have hlen : k ≤ (everyNth c i (el.drop g)).length / b := by
    rw [Nat.le_div_iff_mul_le hb]
    rcases Nat.eq_zero_or_pos (k * b) with h | h
    · omega
    · have := (everyNth_length_lt hc i (el.drop g) (k * b - 1)).2 (by
        rw [List.length_drop]
        have h1 : (k * b - 1) * c + c = k * b * c := by rw [← Nat.succ_mul]; congr 1; omega
        rw [show k * (c * b) = k * b * c by rw [Nat.mul_assoc, Nat.mul_comm b c]] at hle
        omega)
      omega
  unfold shardStream
  rw [Nat.mul_div_cancel_left b hc, List.length_map, List.length_range, ← List.map_take, List.take_range, Nat.min_eq_left hlen]
  refine ⟨hlen, ?_⟩
  apply List.map_congr_left
  intro q _
  congr 1
  unfold group globalBatchAt
  rw [← List.drop_drop, show q * (c * b) = q * b * c by rw [Nat.mul_assoc, Nat.mul_comm b c], Nat.mul_comm c b, everyNth_take hc hi, everyNth_drop hc]

section
variable {batchFn : List (Option α) → Py (Option β)} {ds : MapDs α} {el : List (Option α)} {mk : List (Option α) → β}
  (hlen : el.length = ds.len) (hv : ∀ k (h : k < el.length), ds.getitem k = .ok el[k])
  (hmk : ∀ l, l ≠ [] → l ⊆ el → batchFn l = .ok (some (mk l)))

include hlen hv hmk

theorem elasticShardDs_ok {gb c : Nat} (hc : 0 < c) (hd : c ∣ gb) (hgb : 0 < gb) (i g : Nat) :
    ∃ d, elasticShardDs batchFn ds gb i c g = .ok d ∧ d.len = (shardStream mk el gb c i g).length ∧
      ∀ k (h : k < (shardStream mk el gb c i g).length), d.getitem k = .ok (some (shardStream mk el gb c i g)[k]) := by
  have hb : 0 < gb / c := Nat.div_pos (Nat.le_of_dvd hgb hd) hc
  have hmod : gb % c = 0 := Nat.mod_eq_zero_of_dvd hd
  rcases slice_rejects_iff (some ((g + i : Nat) : Int)) none (some (c : Int)) ds.len with ⟨_, h⟩ | ⟨⟨s, hs⟩, _⟩
  · simp at h; omega
  refine ⟨batchDs (gb / c) true false batchFn (sliceDs s ds), ?_, ?_⟩
  · unfold elasticShardDs
    rw [hs]
    simp only [bind, Except.bind, hmod, ne_eq, not_true_eq_false, if_false]
    rw [if_neg (by omega)]
  have hep : epoch ds 0 = el.map .ok := by
    apply List.ext_getElem?
    intro k
    by_cases hk : k < ds.len
    · rw [epoch_getElem? ds 0 k hk, List.getElem?_map, List.getElem?_eq_getElem (by omega)]
      have := hv k (by omega)
      simpa using this
    · rw [List.getElem?_eq_none (by rw [epoch_length]; omega), List.getElem?_eq_none (by rw [List.length_map]; omega)]
  have hsl : epoch (sliceDs s ds) 0 = (everyNth c i (el.drop g)).map .ok := by
    apply List.ext_getElem?
    intro k
    rw [strided_slice_get ds c hc (g + i) s hs 0 k, hep, List.getElem?_map, List.getElem?_map, everyNth_getElem? hc, List.getElem?_drop]
    congr 2
    omega
  have hsll : (sliceDs s ds).len = (everyNth c i (el.drop g)).length := by
    rw [← epoch_length (sliceDs s ds) 0, hsl, List.length_map]
  have hblen : (batchDs (gb / c) true false batchFn (sliceDs s ds)).len = (shardStream mk el gb c i g).length := by
    show batchLen (sliceDs s ds).len (gb / c) true = _
    rw [hsll]
    simp [batchLen, shardStream]
  refine ⟨hblen, ?_⟩
  intro k hk
  have := batch_getitem (sliceDs s ds) (gb / c) true batchFn 0 k hb (by rw [hblen]; exact hk)
  rw [Int.zero_mul, Int.zero_add] at this
  rw [this, hsl]
  have hk' : k < (everyNth c i (el.drop g)).length / (gb / c) := by simpa [shardStream] using hk
  have hm : ((group ((everyNth c i (el.drop g)).map (Except.ok (ε := Err))) (gb / c) k)).mapM id = Except.ok (group (everyNth c i (el.drop g)) (gb / c) k) := by
    have he : group ((everyNth c i (el.drop g)).map (Except.ok (ε := Err))) (gb / c) k =
        (group (everyNth c i (el.drop g)) (gb / c) k).map .ok := by
      simp [group, List.map_take, List.map_drop]
    rw [he, mapM_map_ok]
  rw [hm]
  show batchFn _ = _
  rw [hmk]
  · simp [shardStream]
  · intro h0
    have := group_full hb hk'
    rw [h0] at this
    simp at this
    omega
  · intro x hx
    exact List.mem_of_mem_drop (everyNth_mem (group_mem_sub hx))

/-- The iterator of a shard, as it is after restoring a checkpoint `g`. -/
def elasticMapFrom (batchFn : List (Option α) → Py (Option β)) (ds : MapDs α) (size threads gb i c g : Nat) : Iter (Option β) :=
  { elasticMapIter batchFn ds size threads gb i c with init := { g := g, inner := none } }

/-- Position `m` of the stream that starts at `g`. -/
def EMAt (batchFn : List (Option α) → Py (Option β)) (ds : MapDs α) (stream : Nat → List β) (gb i c g : Nat) (s : ElasticMapState) (m : Nat) : Prop :=
  s.g = g + m * gb ∧ m ≤ (stream g).length ∧ ∀ g0 st, s.inner = some (g0, st) → ∃ q d, g0 = g + q * gb ∧ q ≤ m ∧
    elasticShardDs batchFn ds gb i c g0 = .ok d ∧ PfAt d.len false ((stream g0).map some) 0 st (m - q)

theorem elasticMap_sim {gb c : Nat} (size threads : Nat) (hc : 0 < c) (hd : c ∣ gb) (hgb : 0 < gb) (i g : Nat) :
    Sim (elasticMapFrom batchFn ds size threads gb i c g) ((shardStream mk el gb c i g).map (fun x => Except.ok (some x))) true
      (EMAt batchFn ds (shardStream mk el gb c i) gb i c g) (fun k m => k = g + m * gb ∧ m ≤ (shardStream mk el gb c i g).length) := by
  have psim : ∀ g0 d, elasticShardDs batchFn ds gb i c g0 = .ok d →
      Sim (prefetchIter size threads false none d) ((shardStream mk el gb c i g0).map (fun x => Except.ok (some x))) true
        (PfAt d.len false ((shardStream mk el gb c i g0).map some) 0) (PfCk false ((shardStream mk el gb c i g0).map some) 0) := by
    intro g0 d hd0
    obtain ⟨d', h1, h2, h3⟩ := elasticShardDs_ok hlen hv hmk hc hd hgb i g0
    rw [hd0] at h1
    injection h1 with h1
    subst h1
    have := prefetchIter_sim (ds := d) (vs := (shardStream mk el gb c i g0).map some) (allow := false) size threads true [] (by simp)
      (by simp [h2]) (by intro k hk; rw [h3 k (by simpa using hk)]; simp) (fun _ => ⟨by simp [h2], rfl⟩) (by simp)
    have hk : keepElems false ((shardStream mk el gb c i g0).map some) = (shardStream mk el gb c i g0).map some := by
      unfold keepElems
      rw [List.filter_eq_self]
      intro x hx
      obtain ⟨y, _, rfl⟩ := List.mem_map.1 hx
      rfl
    rw [hk, List.map_map] at this
    simp only [List.map_nil, List.append_nil, List.length_nil] at this
    exact this
  have hstream : ∀ q, shardStream mk el gb c i (g + q * gb) = (shardStream mk el gb c i g).drop q := shardStream_drop mk el hc hd hgb i g
  -- a state that has an inner iterator, or can get one
  have ready : ∀ (s : ElasticMapState) (m : Nat), EMAt batchFn ds (shardStream mk el gb c i) gb i c g s m →
      ∃ q d st, q ≤ m ∧ elasticShardDs batchFn ds gb i c (g + q * gb) = .ok d ∧
        PfAt d.len false ((shardStream mk el gb c i (g + q * gb)).map some) 0 st (m - q) ∧
        ∀ F, (elasticMapFrom batchFn ds size threads gb i c g).next F s = elasticMapAdvance gb F s (g + q * gb) d st := by
    rintro s m ⟨h1, h2, h3⟩
    cases hin : s.inner with
    | none =>
      obtain ⟨d, e1, e2, e3⟩ := elasticShardDs_ok hlen hv hmk hc hd hgb i s.g
      refine ⟨m, d, (prefetchIter size threads false none d).init, Nat.le_refl _, by rw [← h1]; exact e1, ?_, ?_⟩
      · rw [Nat.sub_self, ← h1]
        exact (psim s.g d e1).init
      · intro F
        simp only [elasticMapFrom, elasticMapIter, hin, e1]
        rw [← h1]
    | some p =>
      obtain ⟨g0, st⟩ := p
      obtain ⟨q, d, rfl, e2, e3, e4⟩ := h3 g0 st hin
      refine ⟨q, d, st, e2, e3, e4, ?_⟩
      intro F
      simp only [elasticMapFrom, elasticMapIter, hin, e3]
  refine { init := ?_, bound := ?_, next_item := ?_, next_stop := ?_, get := ?_, set := ?_, ck_bound := ?_ }
  · exact ⟨by simp [elasticMapFrom], Nat.zero_le _, fun g0 st h => by cases h⟩
  · rintro s m ⟨_, h, _⟩
    simpa using h
  · rintro s m r hs hr
    obtain ⟨q, d, st, hq, hd0, hat, hn⟩ := ready s m hs
    obtain ⟨h1, h2, _⟩ := hs
    have hm : m < (shardStream mk el gb c i g).length := by simpa using getElem?_lt hr
    have hr' : ((shardStream mk el gb c i (g + q * gb)).map (fun x => Except.ok (ε := Err) (some x)))[m - q]? = some r := by
      rw [hstream, List.map_drop, List.getElem?_drop, show q + (m - q) = m by omega]
      exact hr
    obtain ⟨st', e1, e2⟩ := (psim _ d hd0).next_item hat hr'
    obtain ⟨x, rfl⟩ : ∃ x, r = .ok (some x) := by
      rw [List.getElem?_map] at hr
      obtain ⟨y, _, rfl⟩ := Option.map_eq_some_iff.1 hr
      exact ⟨y, rfl⟩
    refine ⟨{ g := s.g + gb, inner := some (g + q * gb, st') }, e1.mono ?_, ?_, hm, ?_⟩
    · intro F he
      rw [hn]
      have he' : prefetchLoop d false none F st = some (st', .item (some x)) := he
      simp only [elasticMapAdvance, he']
      rfl
    · show s.g + gb = _
      rw [h1, Nat.add_mul]
      omega
    · intro g0 st0 h0
      injection h0 with h0
      injection h0 with h0 h0'
      subst h0 h0'
      exact ⟨q, d, rfl, by omega, hd0, by rw [show m + 1 - q = m - q + 1 by omega]; exact e2⟩
  · rintro s hs _
    obtain ⟨q, d, st, hq, hd0, hat, hn⟩ := ready s _ hs
    obtain ⟨h1, h2, _⟩ := hs
    rw [List.length_map] at *
    have hl : ((shardStream mk el gb c i (g + q * gb)).map (fun x => Except.ok (ε := Err) (some x))).length =
        (shardStream mk el gb c i g).length - q := by
      rw [List.length_map, hstream, List.length_drop]
    rw [← hl] at hat
    obtain ⟨st', e1, e2⟩ := (psim _ d hd0).next_stop hat rfl
    rw [hl] at e2
    refine ⟨{ s with inner := some (g + q * gb, st') }, e1.mono ?_, h1, h2, ?_⟩
    · intro F he
      rw [hn]
      have he' : prefetchLoop d false none F st = some (st', .stop) := he
      simp only [elasticMapAdvance, he']
      rfl
    · intro g0 st0 h0
      injection h0 with h0
      injection h0 with h0 h0'
      subst h0 h0'
      exact ⟨q, d, rfl, hq, hd0, e2⟩
  · rintro s m hs
    exact ⟨hs, hs.1, hs.2.1⟩
  · rintro s n k m _ ⟨rfl, hm⟩ _
    exact ⟨{ g := g + m * gb, inner := none }, Ev.of_forall (fun F => rfl), rfl, hm, fun g0 st h => by cases h⟩
  · rintro k m ⟨_, h⟩
    simpa using h

omit hlen hv hmk in
theorem nexts_from (size threads gb i c g F : Nat) : ∀ (m : Nat) (s : ElasticMapState),
    runNexts (elasticMapFrom batchFn ds size threads gb i c g) F m s = runNexts (elasticMapIter batchFn ds size threads gb i c) F m s := by
  intro m
  induction m with
  | zero => intro s; rfl
  | succ m ih =>
    intro s
    show (do
      let (s, r) ← (elasticMapIter batchFn ds size threads gb i c).next F s
      let (s, rs) ← runNexts (elasticMapFrom batchFn ds size threads gb i c g) F m s
      some (s, r :: rs)) = (do
      let (s, r) ← (elasticMapIter batchFn ds size threads gb i c).next F s
      let (s, rs) ← runNexts (elasticMapIter batchFn ds size threads gb i c) F m s
      some (s, r :: rs))
    cases (elasticMapIter batchFn ds size threads gb i c).next F s with
    | none => rfl
    | some p =>
      obtain ⟨s1, r⟩ := p
      show (runNexts (elasticMapFrom batchFn ds size threads gb i c g) F m s1).bind _ = (runNexts (elasticMapIter batchFn ds size threads gb i c) F m s1).bind _
      exact congrArg (fun x => Option.bind x (fun p => some (p.1, r :: p.2))) (ih s1)

theorem shard_nexts {gb c : Nat} (size threads : Nat) (hc : 0 < c) (hd : c ∣ gb) (hgb : 0 < gb) {i : Nat} (hi : i < c) (g k : Nat)
    (hle : g + k * gb ≤ el.length) :
    ∃ s' : (elasticMapIter batchFn ds size threads gb i c).S,
      Ev (fun F => runNexts (elasticMapIter batchFn ds size threads gb i c) F k { g := g, inner := none } =
        some (s', (List.range k).map (fun q => .item (some (mk (everyNth c i (globalBatchAt el g gb q))))))) ∧
      ((elasticMapIter batchFn ds size threads gb i c).get s').2 = g + k * gb := by
  have sim := elasticMap_sim hlen hv hmk size threads hc hd hgb i g
  obtain ⟨hl, htk⟩ := shardStream_take mk el hc hd hgb hi g k hle
  obtain ⟨s', e1, e2⟩ := nexts_sim sim k 0 _ sim.init (by rw [List.length_map]; omega)
  refine ⟨s', e1.mono ?_, ?_⟩
  · intro F he
    refine (nexts_from size threads gb i c g F k _).symm.trans (he.trans ?_)
    rw [List.drop_zero, ← List.map_take, htk, List.map_map, List.map_map]
    rfl
  · have := e2.1
    rw [Nat.zero_add] at this
    exact this

end

end Grain
