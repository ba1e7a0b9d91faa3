import Verif.Iter.Prefetch
import Verif.Iter.RandomAccessSpec
/-
C28: the iterator over a random access dataset as a position in that dataset.
-/
namespace Grain

section
variable {ds : MapDs α} {vs : List (Option α)} {allow : Bool}

/-- The iterator is at position `r`. -/
def RaAt (len : Nat) (vs : List (Option α)) (s : PrefetchState) (r : Nat) : Prop :=
  s.returned = ((r : Nat) : Int) ∧ r ≤ vs.length ∧ PfBuf len s r

theorem keepElems_true (vs : List (Option α)) : keepElems true vs = vs := by simp [keepElems]

theorem raAt_tweak {s : PrefetchState} {r len : Nat} (h : RaAt len vs s r) (t : PrefetchTweak) :
    (prefetchTweak len s t).2 = none ∧ RaAt len vs (prefetchTweak len s t).1 r := by
  obtain ⟨h1, h2, h3⟩ := h
  obtain ⟨e1, e2⟩ := prefetchTweak_inv (vs := vs) (allow := true) (extra := 0) s r t
    (Or.inl ⟨r, h1, h2, h3, by rw [keepElems_true]; exact h2, by rw [keepElems_true, keepElems_true]⟩)
  refine ⟨e1, ?_⟩
  rcases e2 with ⟨q, f1, f2, f3, f4, f5⟩ | ⟨_, f, _⟩
  · rw [keepElems_true, keepElems_true] at f5
    have := congrArg List.length f5
    simp only [List.length_drop] at this
    obtain rfl : q = r := by omega
    exact ⟨f1, f2, f3⟩
  · omega

theorem raAt_set {s : PrefetchState} {r i : Nat} (hlen : vs.length = ds.len) (h : RaAt ds.len vs s r) (hi : i ≤ vs.length) :
    ∃ s', prefetchSet ds.len s i = (s', none) ∧ RaAt ds.len vs s' i := by
  have : ¬ ((i : Int) < 0 ∨ (i : Int) > (ds.len : Int)) := by omega
  refine ⟨{ s with returned := i, buffered := i, buffer := [] }, by simp only [prefetchSet, if_neg this], rfl, hi, rfl, ?_, ?_,
    h.2.2.2.2.2⟩
  · simp
  · simp; omega

theorem zipIdx_drop {l : List β} {r : Nat} (hr : r < l.length) :
    l.zipIdx.drop r = (l[r], r) :: l.zipIdx.drop (r + 1) := by
  rw [List.drop_eq_getElem_cons (by simpa using hr)]
  simp

theorem raAt_next (hlen : vs.length = ds.len) (hv : ∀ k (hk : k < vs.length), ds.getitem k = .ok vs[k]) :
    ∀ (k r : Nat) (s : PrefetchState), k = vs.length - r → RaAt ds.len vs s r →
    ∃ s', match nextKept vs allow r with
      | some (x, q) => (∀ n, k + 1 ≤ n → prefetchLoop ds allow none n s = some (s', .item x)) ∧ RaAt ds.len vs s' (q + 1)
      | none => (∀ n, k + 1 ≤ n → prefetchLoop ds allow none n s = some (s', .stop)) ∧ RaAt ds.len vs s' vs.length := by
  intro k
  induction k with
  | zero =>
    intro r s hk h
    have hr : r = vs.length := by have := h.2.1; omega
    subst hr
    have e : nextKept vs allow vs.length = none := by
      unfold nextKept
      rw [List.drop_eq_nil_of_le (by simp)]
      rfl
    rw [e]
    refine ⟨s, ?_, h⟩
    intro n hn
    obtain ⟨n, rfl⟩ : ∃ m, n = m + 1 := ⟨n - 1, by omega⟩
    rw [prefetchLoop, if_pos (by rw [h.1, hlen])]
  | succ k ih =>
    intro r s hk h
    have hr : r < vs.length := by omega
    obtain ⟨s1, e1, e2, _⟩ := prefetchRead_spec ds s r (by omega) h.1 h.2.2
    obtain ⟨e3, e4⟩ := e2 _ (hv r hr)
    rw [hv r hr] at e1
    have hne : ¬ s.returned = (ds.len : Int) := by rw [h.1]; omega
    obtain ⟨c', hc⟩ := Checker.check_none s1.checker (allow || vs[r].isSome)
    by_cases hkeep : (allow || vs[r].isSome) = true
    · have e : nextKept vs allow r = some (vs[r], r) := by
        unfold nextKept
        rw [zipIdx_drop hr, List.find?_cons]
        simp only [hkeep]
      rw [e]
      refine ⟨{ s1 with checker := c' }, ?_, e3, hr, e4⟩
      intro n hn
      obtain ⟨n, rfl⟩ : ∃ m, n = m + 1 := ⟨n - 1, by omega⟩
      rw [prefetchLoop, if_neg hne, e1]
      simp only []
      rw [hc]
      simp only [if_pos hkeep]
    · have e : nextKept vs allow r = nextKept vs allow (r + 1) := by
        unfold nextKept
        rw [zipIdx_drop hr, List.find?_cons]
        simp only [hkeep]
      have step : ∀ n, prefetchLoop ds allow none (n + 1) s = prefetchLoop ds allow none n { s1 with checker := c' } := by
        intro n
        rw [prefetchLoop, if_neg hne, e1]
        simp only []
        rw [hc]
        simp only [hkeep, Bool.false_eq_true, if_false]
      obtain ⟨s', h1⟩ := ih (r + 1) { s1 with checker := c' } (by omega) ⟨e3, hr, e4⟩
      refine ⟨s', ?_⟩
      rw [e]
      cases hn : nextKept vs allow (r + 1) with
      | none =>
        rw [hn] at h1
        refine ⟨fun n hn => ?_, h1.2⟩
        obtain ⟨n, rfl⟩ : ∃ m, n = m + 1 := ⟨n - 1, by omega⟩
        rw [step]
        exact h1.1 n (by omega)
      | some xq =>
        rw [hn] at h1
        refine ⟨fun n hn => ?_, h1.2⟩
        obtain ⟨n, rfl⟩ : ∃ m, n = m + 1 := ⟨n - 1, by omega⟩
        rw [step]
        exact h1.1 n (by omega)
end

section
variable {it : Iter β} {tweak : it.S → PrefetchTweak → it.S × Option Err} {F : Nat}

theorem raRun_next {s s' : it.S} {saved : List it.C} {ops : List RaOp} {r : Res β} {outs : List (Res β ⊕ Int)}
    (h : it.next F s = some (s', r)) (h1 : raRun it tweak F s' saved ops = some outs) :
    raRun it tweak F s saved (.next :: ops) = some (.inl r :: outs) := by
  rw [raRun.eq_def]
  dsimp only
  rw [h]
  show Option.map _ (raRun it tweak F s' saved ops) = _
  rw [h1]
  rfl

theorem raRun_getState {s s' : it.S} {c : it.C} {saved : List it.C} {ops : List RaOp} {outs : List (Res β ⊕ Int)}
    (h : it.get s = (s', c)) (h1 : raRun it tweak F s' (saved ++ [c]) ops = some outs) :
    raRun it tweak F s saved (.getState :: ops) = some outs := by
  rw [raRun.eq_def]
  show raRun it tweak F (it.get s).1 (saved ++ [(it.get s).2]) ops = some outs
  rw [h]
  exact h1

theorem raRun_setState {s s' : it.S} {c : it.C} {saved : List it.C} {ops : List RaOp} {outs : List (Res β ⊕ Int)} {k : Nat}
    (hk : saved[k]? = some c) (h : it.set F s c = some (s', none)) (h1 : raRun it tweak F s' saved ops = some outs) :
    raRun it tweak F s saved (.setState k :: ops) = some outs := by
  rw [raRun.eq_def]
  dsimp only
  rw [hk]
  simp only [Option.bind_eq_bind, Option.bind_some, h]
  exact h1

theorem raRun_fresh {s s' : it.S} {c : it.C} {saved : List it.C} {ops : List RaOp} {outs : List (Res β ⊕ Int)} {k : Nat}
    (hk : saved[k]? = some c) (h : it.set F it.init c = some (s', none)) (h1 : raRun it tweak F s' saved ops = some outs) :
    raRun it tweak F s saved (.fresh k :: ops) = some outs := by
  rw [raRun.eq_def]
  dsimp only
  rw [hk]
  simp only [Option.bind_eq_bind, Option.bind_some, h]
  exact h1

theorem raRun_getIndex {s : it.S} {i : Int} {saved : List it.C} {ops : List RaOp} {outs : List (Res β ⊕ Int)}
    (h : it.getIdx s = .ok i) (h1 : raRun it tweak F s saved ops = some outs) :
    raRun it tweak F s saved (.getIndex :: ops) = some (.inr i :: outs) := by
  rw [raRun.eq_def]
  dsimp only
  rw [h]
  dsimp only
  rw [h1]
  rfl

theorem raRun_setIndex {s s' : it.S} {i : Nat} {saved : List it.C} {ops : List RaOp} {outs : List (Res β ⊕ Int)}
    (h : it.setIdx s i = (s', none)) (h1 : raRun it tweak F s' saved ops = some outs) :
    raRun it tweak F s saved (.setIndex i :: ops) = some outs := by
  rw [raRun.eq_def]
  dsimp only
  rw [h]
  exact h1

theorem raRun_tweak {s : it.S} {t : PrefetchTweak} {saved : List it.C} {ops : List RaOp} {outs : List (Res β ⊕ Int)}
    (h : (tweak s t).2 = none) (h1 : raRun it tweak F (tweak s t).1 saved ops = some outs) :
    raRun it tweak F s saved (.tweak t :: ops) = some outs := by
  rw [raRun.eq_def]
  dsimp only
  cases e : tweak s t with
  | mk s1 r1 =>
    rw [e] at h h1
    simp only at h
    subst h
    exact h1
end

/-- C28: iterating over a random access dataset (`to_iter_dataset`), sparse or not, for every buffer size and thread count, changed
at will while running.  The iterator is a position in the dataset: `next` returns the first element at or after it that is not
`None`; `get_state` and `get_next_index` both give that position, and `set_state` and `set_next_index` both go to it, on the same
iterator or on a new one, in any order and any number of times. -/
theorem prefetch_position_exact {ds : MapDs α} {vs : List (Option α)} (size threads : Nat) (allow : Bool)
    (hlen : vs.length = ds.len) (hv : ∀ k (hk : k < vs.length), ds.getitem k = .ok vs[k])
    (ops : List RaOp) (outs : List (Res (Option α) ⊕ Int)) (h : raSpec vs allow 0 [] ops = some outs) :
    ∃ N, ∀ F, N ≤ F → raRun (prefetchIter size threads allow none ds) (prefetchTweak ds.len) F
      (prefetchIter size threads allow none ds).init [] ops = some outs := by
  have i0 : RaAt ds.len vs (prefetchIter size threads allow none ds).init 0 := by
    refine ⟨rfl, Nat.zero_le _, rfl, rfl, by simp [prefetchIter], ?_⟩
    intro hh
    simpa [prefetchIter] using hh
  refine ⟨vs.length + 1, fun F hF => ?_⟩
  have key : ∀ (ops : List RaOp) (s : PrefetchState) (pos : Nat) (saved : List Nat) (outs : List (Res (Option α) ⊕ Int)),
      RaAt ds.len vs s pos → (∀ p ∈ saved, p ≤ vs.length) → raSpec vs allow pos saved ops = some outs →
      raRun (prefetchIter size threads allow none ds) (prefetchTweak ds.len) F s (saved.map (fun p : Nat => (p : Int))) ops =
        some outs := by
    intro ops
    induction ops with
    | nil => intro s pos saved outs _ _ h; simpa [raSpec, raRun] using h
    | cons o ops ih =>
      intro s pos saved outs hs hsv h
      cases o with
      | next =>
        obtain ⟨s', hn⟩ := raAt_next (allow := allow) hlen hv _ pos s rfl hs
        rw [raSpec] at h
        cases hk : nextKept vs allow pos with
        | none =>
          rw [hk] at h hn
          obtain ⟨o1, h1, rfl⟩ := Option.map_eq_some_iff.mp h
          exact raRun_next (it := prefetchIter size threads allow none ds) (hn.1 F (by omega)) (ih s' _ saved o1 hn.2 hsv h1)
        | some xq =>
          obtain ⟨x, q⟩ := xq
          rw [hk] at h hn
          obtain ⟨o1, h1, rfl⟩ := Option.map_eq_some_iff.mp h
          exact raRun_next (it := prefetchIter size threads allow none ds) (hn.1 F (by omega)) (ih s' _ saved o1 hn.2 hsv h1)
      | getState =>
        rw [raSpec] at h
        have := ih s pos (saved ++ [pos]) outs hs (by
          intro p hp
          rcases List.mem_append.mp hp with hp | hp
          · exact hsv p hp
          · rw [List.mem_singleton.mp hp]; exact hs.2.1) h
        have e : (saved ++ [pos]).map (fun p : Nat => (p : Int)) = saved.map (fun p : Nat => (p : Int)) ++ [(pos : Int)] :=
          List.map_append
        refine raRun_getState (it := prefetchIter size threads allow none ds) (c := (pos : Int)) ?_ (e ▸ this)
        show (s, s.returned) = _
        rw [hs.1]
        rfl
      | setState k =>
        rw [raSpec] at h
        obtain ⟨p, hp, h1⟩ := Option.bind_eq_some_iff.mp h
        obtain ⟨s', e1, e2⟩ := raAt_set hlen hs (hsv p (List.mem_of_getElem? hp))
        have e3 : (saved.map (fun p : Nat => (p : Int)))[k]? = some (p : Int) := by rw [List.getElem?_map, hp]; rfl
        exact raRun_setState (it := prefetchIter size threads allow none ds) e3 (congrArg some e1) (ih s' p saved outs e2 hsv h1)
      | fresh k =>
        rw [raSpec] at h
        obtain ⟨p, hp, h1⟩ := Option.bind_eq_some_iff.mp h
        obtain ⟨s', e1, e2⟩ := raAt_set hlen i0 (hsv p (List.mem_of_getElem? hp))
        have e3 : (saved.map (fun p : Nat => (p : Int)))[k]? = some (p : Int) := by rw [List.getElem?_map, hp]; rfl
        exact raRun_fresh (it := prefetchIter size threads allow none ds) e3 (congrArg some e1) (ih s' p saved outs e2 hsv h1)
      | getIndex =>
        rw [raSpec] at h
        obtain ⟨o1, h1, rfl⟩ := Option.map_eq_some_iff.mp h
        exact raRun_getIndex (it := prefetchIter size threads allow none ds) (congrArg Except.ok hs.1)
          (ih s pos saved o1 hs hsv h1)
      | setIndex i =>
        rw [raSpec] at h
        by_cases hi : i ≤ vs.length
        · rw [if_pos hi] at h
          obtain ⟨s', e1, e2⟩ := raAt_set hlen hs hi
          exact raRun_setIndex (it := prefetchIter size threads allow none ds) e1 (ih s' i saved outs e2 hsv h)
        · rw [if_neg hi] at h; cases h
      | tweak t =>
        rw [raSpec] at h
        obtain ⟨e1, e2⟩ := raAt_tweak hs t
        exact raRun_tweak (it := prefetchIter size threads allow none ds) e1 (ih _ pos saved outs e2 hsv h)
  exact key ops _ 0 [] outs i0 (by simp) h

/-- A dataset of length 5 with two `None`. -/
def sparse5 : MapDs Nat where
  len := 5
  getitem i := .ok (if i = 1 ∨ i = 2 then none else some i.toNat)
  getitems is := is.mapM (fun i => .ok (if i = 1 ∨ i = 2 then none else some i.toNat))

/-- Non-trivial case: a sparse dataset of five values; states and indices are used together, with changes of the settings. -/
example : ∃ N, ∀ F, N ≤ F →
    raRun (prefetchIter 2 3 false none sparse5) (prefetchTweak 5) F (prefetchIter 2 3 false none sparse5).init []
      [.next, .getIndex, .getState, .next, .getIndex, .tweak (.setSize 0), .setIndex 2, .getIndex, .next, .setState 0,
       .getIndex, .next, .next, .next, .fresh 0, .getIndex] =
    some [.inl (.item (some 0)), .inr 1, .inl (.item (some 3)), .inr 4, .inr 2, .inl (.item (some 3)), .inr 1,
      .inl (.item (some 3)), .inl (.item (some 4)), .inl .stop, .inr 1] :=
  prefetch_position_exact (vs := [some 0, none, none, some 3, some 4]) 2 3 false rfl (by decide) _ _ (by decide)

end Grain
