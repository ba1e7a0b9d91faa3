import Verif.Iter.Model
import Verif.Iter.Spec
/-
Simulations for map, random_map, map_with_index and limit.
-/
namespace Grain

theorem getElem?_lt {l : List α} {n : Nat} {a : α} (h : l[n]? = some a) : n < l.length := by
  by_contra hc
  rw [List.getElem?_eq_none (by omega)] at h
  cases h

theorem okCount_succ {ys : List (Py α)} {n : Nat} {r : Py α} (h : ys[n]? = some r) :
    okCount ys (n + 1) = okCount ys n + (if r.toBool then 1 else 0) := by
  have hlt := getElem?_lt h
  unfold okCount
  rw [List.take_add_one, h]
  rw [List.filter_append, List.length_append]
  cases hr : r.toBool <;> simp [hr]

@[simp] theorem okCount_zero (ys : List (Py α)) : okCount ys 0 = 0 := by simp [okCount]

/-! ### map -/

theorem mapIter_sim {p : Iter (Option α)} {f : α → Py (Option β)} {xs : List (Py (Option α))} {ended : Bool}
    {At : p.S → Nat → Prop} {Ck : p.C → Nat → Prop} (h : Sim p xs ended At Ck) :
    Sim (mapIter f p) (xs.map (mapOutcome f)) ended At Ck where
  init := h.init
  bound := by intro s n hs; simpa using h.bound hs
  next_item := by
    intro s n r hs hr
    rw [List.getElem?_map, Option.map_eq_some_iff] at hr
    obtain ⟨x, hx, rfl⟩ := hr
    obtain ⟨s', h1, h2⟩ := h.next_item hs hx
    refine ⟨s', h1.mono ?_, h2⟩
    intro F e
    simp only [mapIter, e, Option.bind_eq_bind, Option.bind_some]
    match x with
    | .error e => rfl
    | .ok none => rfl
    | .ok (some a) =>
      simp only [toRes, mapOutcome]
      cases f a <;> rfl
  next_stop := by
    intro s hs he
    rw [List.length_map] at hs
    obtain ⟨s', h1, h2⟩ := h.next_stop hs he
    refine ⟨s', h1.mono ?_, by simpa using h2⟩
    intro F e
    simp only [mapIter, e, Option.bind_eq_bind, Option.bind_some]
  get := h.get
  set := by
    intro s n c m hs hc hm
    exact h.set hs hc (by simpa using hm)
  ck_bound := by intro c m hc; simpa using h.ck_bound hc

/-! ### random_map and map_with_index -/

theorem countedMap_length (g : Nat → α → Py β) (k : Nat) (xs : List (Py α)) :
    (countedMap g k xs).length = xs.length := by
  induction xs generalizing k with
  | nil => rfl
  | cons x xs ih =>
    cases x with
    | error e => simp [countedMap, ih]
    | ok a => cases hg : g k a <;> simp [countedMap, hg, ih]

theorem countedMap_get (g : Nat → α → Py β) (k : Nat) (xs : List (Py α)) (n : Nat) (x : Py α) (hx : xs[n]? = some x) :
    (countedMap g k xs)[n]? = some (x.bind (g (k + okCount (countedMap g k xs) n))) := by
  induction xs generalizing k n with
  | nil => simp at hx
  | cons y xs ih =>
    cases n with
    | zero =>
      simp only [List.getElem?_cons_zero, Option.some.injEq] at hx
      subst hx
      cases y with
      | error e => simp [countedMap, Except.bind]
      | ok a => cases hg : g k a <;> simp [countedMap, hg, Except.bind]
    | succ n =>
      rw [List.getElem?_cons_succ] at hx
      cases y with
      | error e =>
        have hc : okCount (countedMap g k (.error e :: xs)) (n + 1) = okCount (countedMap g k xs) n := by
          simp [okCount, countedMap, Except.toBool]
        rw [hc]
        simp only [countedMap, List.getElem?_cons_succ]
        exact ih k n hx
      | ok a =>
        cases hg : g k a with
        | error e =>
          have hc : okCount (countedMap g k (.ok a :: xs)) (n + 1) = okCount (countedMap g k xs) n := by
            simp [okCount, countedMap, hg, Except.toBool]
          rw [hc]
          simp only [countedMap, hg, List.getElem?_cons_succ]
          exact ih k n hx
        | ok b =>
          have hc : okCount (countedMap g k (.ok a :: xs)) (n + 1) = okCount (countedMap g (k + 1) xs) n + 1 := by
            simp [okCount, countedMap, hg, Except.toBool]
          rw [hc]
          simp only [countedMap, hg, List.getElem?_cons_succ]
          rw [ih (k + 1) n hx]
          rw [show k + 1 + okCount (countedMap g (k + 1) xs) n = k + (okCount (countedMap g (k + 1) xs) n + 1) by omega]

/-- What `random_map` does to an element when `k` elements were returned before. -/
def randomMapAt (f : α → Nat → Py (Option β)) (procIndex procCount : Nat) (k : Nat) : Option α → Py (Option β)
  | none => .ok none
  | some a => f a (procIndex + k * procCount)

/-- What `map_with_index` does to an element when `k` elements were returned before. -/
def mapWithIndexAt (f : Nat → α → Py (Option β)) (k : Nat) : Option α → Py (Option β)
  | none => .ok none
  | some a => f k a

/-- Common part of random_map, map_with_index: an iterator that applies `g counter` to the parent's elements. -/
theorem counted_sim {p : Iter α} {q : Iter β} {xs : List (Py α)} {ended : Bool} {At : p.S → Nat → Prop}
    {Ck : p.C → Nat → Prop} (h : Sim p xs ended At Ck) (g : Nat → α → Py β)
    (st : q.S ≃ p.S × Nat) (ck : q.C ≃ p.C × Nat) (hinit : q.init = st.symm (p.init, 0))
    (hnext : ∀ F s, q.next F s = (do
      let (ps, r) ← p.next F (st s).1
      match r with
      | .stop => some (st.symm (ps, (st s).2), .stop)
      | .fail e => some (st.symm (ps, (st s).2), .fail e)
      | .item a =>
        match g (st s).2 a with
        | .ok b => some (st.symm (ps, (st s).2 + 1), .item b)
        | .error e => some (st.symm (ps, (st s).2), .fail e)))
    (hget : ∀ s, q.get s = (st.symm ((p.get (st s).1).1, (st s).2), ck.symm ((p.get (st s).1).2, (st s).2)))
    (hset : ∀ F s c, q.set F s c = (do
      match (← p.set F (st s).1 (ck c).1) with
      | (ps, some e) => some (st.symm (ps, (st s).2), some e)
      | (ps, none) => some (st.symm (ps, (ck c).2), none))) :
    Sim q (countedMap g 0 xs) ended (fun s n => At (st s).1 n ∧ (st s).2 = okCount (countedMap g 0 xs) n)
      (fun c n => Ck (ck c).1 n ∧ (ck c).2 = okCount (countedMap g 0 xs) n) where
  init := by rw [hinit]; simpa using h.init
  bound := by intro s n hs; rw [countedMap_length]; exact h.bound hs.1
  next_item := by
    intro s n r hs hr
    have hlt := getElem?_lt hr
    rw [countedMap_length] at hlt
    have hx : xs[n]? = some xs[n] := List.getElem?_eq_getElem hlt
    have hg := countedMap_get g 0 xs n _ hx
    rw [hr, Nat.zero_add, ← hs.2] at hg
    obtain ⟨s', h1, h2⟩ := h.next_item hs.1 hx
    have hc := okCount_succ hr
    cases hxn : xs[n] with
    | error e =>
      rw [hxn] at hg h1
      simp only [Option.some.injEq, Except.bind] at hg
      subst hg
      refine ⟨st.symm (s', (st s).2), h1.mono ?_, ?_⟩
      · intro F e1
        rw [hnext, e1]
        rfl
      · simp only [Equiv.apply_symm_apply]
        refine ⟨h2, ?_⟩
        rw [hc, hs.2]
        simp [Except.toBool]
    | ok a =>
      rw [hxn] at hg h1
      simp only [Option.some.injEq, Except.bind] at hg
      cases hga : g (st s).2 a with
      | error e =>
        rw [hga] at hg
        subst hg
        refine ⟨st.symm (s', (st s).2), h1.mono ?_, ?_⟩
        · intro F e1
          rw [hnext, e1]
          simp only [Option.bind_eq_bind, Option.bind_some, toRes, hga]
        · simp only [Equiv.apply_symm_apply]
          refine ⟨h2, ?_⟩
          rw [hc, hs.2]
          simp [Except.toBool]
      | ok b =>
        rw [hga] at hg
        subst hg
        refine ⟨st.symm (s', (st s).2 + 1), h1.mono ?_, ?_⟩
        · intro F e1
          rw [hnext, e1]
          simp only [Option.bind_eq_bind, Option.bind_some, toRes, hga]
        · simp only [Equiv.apply_symm_apply]
          refine ⟨h2, ?_⟩
          rw [hc, hs.2]
          simp [Except.toBool]
  next_stop := by
    intro s hs he
    rw [countedMap_length] at *
    obtain ⟨s', h1, h2⟩ := h.next_stop hs.1 he
    refine ⟨st.symm (s', (st s).2), h1.mono ?_, ?_⟩
    · intro F e1
      rw [hnext, e1]
      rfl
    · simp only [Equiv.apply_symm_apply]
      exact ⟨h2, hs.2⟩
  get := by
    intro s n hs
    rw [hget]
    simp only [Equiv.apply_symm_apply]
    exact ⟨⟨(h.get hs.1).1, hs.2⟩, (h.get hs.1).2, hs.2⟩
  set := by
    intro s n c m hs hc hm
    rw [countedMap_length] at hm
    obtain ⟨s', h1, h2⟩ := h.set hs.1 hc.1 hm
    refine ⟨st.symm (s', (ck c).2), h1.mono ?_, ?_⟩
    · intro F e1
      rw [hset, e1]
      rfl
    · simp only [Equiv.apply_symm_apply]
      exact ⟨h2, hc.2⟩
  ck_bound := by intro c m hc; rw [countedMap_length]; exact h.ck_bound hc.1

theorem randomMapIter_sim {p : Iter (Option α)} {f : α → Nat → Py (Option β)} {i c : Nat} {xs : List (Py (Option α))}
    {ended : Bool} {At : p.S → Nat → Prop} {Ck : p.C → Nat → Prop} (h : Sim p xs ended At Ck) :
    Sim (randomMapIter f i c p) (countedMap (randomMapAt f i c) 0 xs) ended
      (fun s n => At s.1 n ∧ s.2 = okCount (countedMap (randomMapAt f i c) 0 xs) n)
      (fun k n => Ck k.1 n ∧ k.2 = okCount (countedMap (randomMapAt f i c) 0 xs) n) := by
  refine counted_sim (q := randomMapIter f i c p) h (randomMapAt f i c) (Equiv.refl _) (Equiv.refl _) rfl ?_ (fun _ => rfl) ?_
  · intro F ⟨s, n⟩
    simp only [randomMapIter, Equiv.refl_symm]
    congr 1
    funext ⟨ps, r⟩
    match r with
    | .stop => rfl
    | .fail e => rfl
    | .item none => rfl
    | .item (some a) =>
      cases hh : f a (i + n * c) with
      | error e =>
        have h2 : randomMapAt f i c n (some a) = .error e := hh
        simp only []
        erw [h2, hh]
        rfl
      | ok b =>
        have h2 : randomMapAt f i c n (some a) = .ok b := hh
        simp only []
        erw [h2, hh]
        rfl
  · intro F s k
    simp only [randomMapIter, Equiv.refl_symm]
    congr 1
    funext ⟨ps, e⟩
    cases e <;> rfl

theorem mapWithIndexIter_sim {p : Iter (Option α)} {f : Nat → α → Py (Option β)} {xs : List (Py (Option α))}
    {ended : Bool} {At : p.S → Nat → Prop} {Ck : p.C → Nat → Prop} (h : Sim p xs ended At Ck) :
    Sim (mapWithIndexIter f p) (countedMap (mapWithIndexAt f) 0 xs) ended
      (fun s n => At s.1 n ∧ s.2 = okCount (countedMap (mapWithIndexAt f) 0 xs) n)
      (fun k n => Ck k.1 n ∧ k.2 = okCount (countedMap (mapWithIndexAt f) 0 xs) n) := by
  refine counted_sim (q := mapWithIndexIter f p) h (mapWithIndexAt f) (Equiv.refl _) (Equiv.refl _) rfl ?_ (fun _ => rfl) ?_
  · intro F ⟨s, n⟩
    simp only [mapWithIndexIter, Equiv.refl_symm]
    congr 1
    funext ⟨ps, r⟩
    match r with
    | .stop => rfl
    | .fail e => rfl
    | .item none => rfl
    | .item (some a) =>
      cases hh : f n a with
      | error e =>
        have h2 : mapWithIndexAt f n (some a) = .error e := hh
        simp only []
        erw [h2, hh]
        rfl
      | ok b =>
        have h2 : mapWithIndexAt f n (some a) = .ok b := hh
        simp only []
        erw [h2, hh]
        rfl
  · intro F s k
    simp only [mapWithIndexIter, Equiv.refl_symm]
    congr 1
    funext ⟨ps, e⟩
    cases e <;> rfl

/-! ### limit -/

theorem limitStream_length_le (count : Nat) (xs : List (Py α)) : (limitStream count xs).length ≤ xs.length := by
  induction xs generalizing count with
  | nil => cases count <;> simp [limitStream]
  | cons x xs ih =>
    cases count with
    | zero => simp [limitStream]
    | succ c => cases x <;> simp [limitStream, ih]

theorem limitStream_get (count : Nat) (xs : List (Py α)) (n : Nat) (r : Py α)
    (h : (limitStream count xs)[n]? = some r) : xs[n]? = some r ∧ okCount (limitStream count xs) n < count := by
  induction xs generalizing count n with
  | nil => cases count <;> simp [limitStream] at h
  | cons x xs ih =>
    cases count with
    | zero => simp [limitStream] at h
    | succ c =>
      cases n with
      | zero => cases x <;> simp_all [limitStream]
      | succ n =>
        cases x with
        | error e =>
          simp only [limitStream, List.getElem?_cons_succ] at h
          have := ih (c + 1) n h
          simpa [limitStream, okCount, Except.toBool] using this
        | ok a =>
          simp only [limitStream, List.getElem?_cons_succ] at h
          have := ih c n h
          simp only [limitStream, okCount, Except.toBool, List.take_succ_cons, List.getElem?_cons_succ] at this ⊢
          refine ⟨this.1, ?_⟩
          rw [List.filter_cons_of_pos (by rfl), List.length_cons]
          omega

theorem limitStream_full (count : Nat) (xs : List (Py α)) (h : (limitStream count xs).length < xs.length) :
    okCount (limitStream count xs) (limitStream count xs).length = count := by
  induction xs generalizing count with
  | nil => simp at h
  | cons x xs ih =>
    cases count with
    | zero => simp [limitStream]
    | succ c =>
      cases x with
      | error e =>
        simp only [limitStream, List.length_cons] at h
        have := ih (c + 1) (by omega)
        simpa [limitStream, okCount, Except.toBool] using this
      | ok a =>
        simp only [limitStream, List.length_cons] at h
        have := ih c (by omega)
        simpa [limitStream, okCount, Except.toBool] using this

theorem limitIter_sim {p : Iter α} {count : Nat} {xs : List (Py α)} {ended : Bool} {At : p.S → Nat → Prop}
    {Ck : p.C → Nat → Prop} (h : Sim p xs ended At Ck) :
    Sim (limitIter count p) (limitStream count xs) (ended || decide ((limitStream count xs).length < xs.length))
      (fun s n => n ≤ (limitStream count xs).length ∧ At s.1 n ∧ s.2 = okCount (limitStream count xs) n)
      (fun c n => n ≤ (limitStream count xs).length ∧ Ck c.1 n ∧ c.2 = okCount (limitStream count xs) n) where
  init := ⟨by omega, h.init, by simp [limitIter]⟩
  bound := fun hs => hs.1
  next_item := by
    intro s n r hs hr
    obtain ⟨hx, hlt⟩ := limitStream_get _ _ _ _ hr
    have hn := getElem?_lt hr
    obtain ⟨s', h1, h2⟩ := h.next_item hs.2.1 hx
    have hc := okCount_succ hr
    have hnc : ¬ s.2 ≥ count := by rw [hs.2.2]; omega
    refine ⟨(s', okCount (limitStream count xs) (n + 1)), h1.mono ?_, by omega, h2, rfl⟩
    intro F e1
    rw [hs.2.2] at hnc
    simp only [limitIter, e1, Option.bind_eq_bind, Option.bind_some, hc, hs.2.2, if_neg hnc]
    cases r <;> simp [toRes, Except.toBool]
  next_stop := by
    intro s hs he
    by_cases hfull : (limitStream count xs).length < xs.length
    · have hc : s.2 ≥ count := by rw [hs.2.2, limitStream_full _ _ hfull]
      exact ⟨s, Ev.of_forall (fun F => by simp only [limitIter, if_pos hc]), hs⟩
    · have hle := limitStream_length_le count xs
      have hlen : (limitStream count xs).length = xs.length := by omega
      have he' : ended = true := by simpa [hfull] using he
      by_cases hc : s.2 ≥ count
      · exact ⟨s, Ev.of_forall (fun F => by simp only [limitIter, if_pos hc]), hs⟩
      · obtain ⟨s', h1, h2⟩ := h.next_stop (hlen ▸ hs.2.1) he'
        refine ⟨(s', s.2), h1.mono ?_, by omega, by rw [hlen]; exact h2, hs.2.2⟩
        intro F e1
        simp only [limitIter, if_neg hc, e1, Option.bind_eq_bind, Option.bind_some]
  get := by
    intro s n hs
    exact ⟨⟨hs.1, (h.get hs.2.1).1, hs.2.2⟩, hs.1, (h.get hs.2.1).2, hs.2.2⟩
  set := by
    intro s n c m hs hc hm
    have hle := limitStream_length_le count xs
    obtain ⟨s', h1, h2⟩ := h.set hs.2.1 hc.2.1 (by
      simp only [Bool.or_eq_true, decide_eq_true_eq] at hm
      rcases hm with hm | hm | hm
      · left; omega
      · right; exact hm
      · left; have := hc.1; omega)
    refine ⟨(s', c.2), h1.mono ?_, hc.1, h2, hc.2.2⟩
    intro F e1
    simp only [limitIter, e1, Option.bind_eq_bind, Option.bind_some]
  ck_bound := fun hc => hc.1

end Grain
