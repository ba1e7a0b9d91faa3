import Verif.Apply.Spec
import Verif.Loader.LegacyLemmas
import Verif.Multiprocess.LemmasSlice
/-
Lemmas for C88: the iterators of the single methods, restored into new iterators.
-/
namespace Grain

/-- `get_state` changes nothing. -/
def Iter.PureGet (p : Iter α) : Prop := ∀ s, (p.get s).1 = s

theorem batchLoop_iter_renew (p : Iter α) (drop : Bool) (F : Nat) : ∀ (n : Nat) (s : p.S) (vs : List α),
    batchLoop p.renew drop F n s vs = batchLoop p drop F n s vs := by
  intro n
  induction n with
  | zero => intro s vs; rfl
  | succ n ih =>
    intro s vs
    simp only [batchLoop]
    show (p.next F s).bind _ = (p.next F s).bind _
    congr 1
    funext x
    obtain ⟨ps, q⟩ := x
    cases q with
    | stop => rfl
    | fail e => rfl
    | item a => exact ih _ _

theorem batchIter_fresh {p : Iter α} {as : List α} {b : Nat} (hb : 0 < b) (drop : Bool) (f : List α → Py β)
    (h : ResumesFresh p (as.map Except.ok) true) : ResumesFresh (batchIter b drop f p) (batchStream b drop f as true) true := by
  obtain ⟨At, Ck, h⟩ := batchIter_resumes h.renew b hb drop f
  have hn : ∀ F s, (batchIter b drop f p.renew).next F s = (batchIter b drop f p).next F s := by
    intro F s
    simp only [batchIter]
    exact congrArg (fun x => Option.bind x _) (batchLoop_iter_renew p drop F b s [])
  exact ⟨At, Ck, { init := h.init, bound := h.bound
                   next_item := fun hs hx => by
                     obtain ⟨s', g1, g2⟩ := h.next_item hs hx
                     exact ⟨s', g1.mono (fun F e => (hn F _).symm.trans e), g2⟩
                   next_stop := fun hs he => by
                     obtain ⟨s', g1, g2⟩ := h.next_stop hs he
                     exact ⟨s', g1.mono (fun F e => (hn F _).symm.trans e), g2⟩
                   get := h.get
                   set := by intro _ _ _ _ _ _ _ hu; cases hu
                   set_init := fun hc hm => h.set h.init hc hm }⟩

theorem randomMapIter_fresh {p : Iter (Option α)} {xs : List (Py (Option α))} (f : α → Nat → Py (Option β)) (i c : Nat) (h : ResumesFresh p xs true) :
    ResumesFresh (randomMapIter f i c p) (countedMap (randomMapAt f i c) 0 xs) true := by
  obtain ⟨At, Ck, h⟩ := h.renew
  obtain ⟨At, Ck, h⟩ : Resumes (randomMapIter f i c p.renew) (countedMap (randomMapAt f i c) 0 xs) true := ⟨_, _, randomMapIter_sim h⟩
  have hset : ∀ F x, (randomMapIter f i c p).set F (randomMapIter f i c p).init x = (randomMapIter f i c p.renew).set F (randomMapIter f i c p.renew).init x := by
    intro F x
    show (p.set F p.init x.1).bind _ = (p.set F p.init x.1).bind _
    congr 1
    funext y
    obtain ⟨ps, _ | e⟩ := y <;> rfl
  exact ⟨At, Ck, { init := h.init, bound := h.bound, next_item := h.next_item, next_stop := h.next_stop, get := h.get,
                   set := by intro _ _ _ _ _ _ _ hu; cases hu
                   set_init := fun hc hm => by
                     obtain ⟨s', g1, g2⟩ := h.set h.init hc hm
                     exact ⟨s', g1.mono (fun F e => (hset F _).trans e), g2⟩ }⟩

theorem mapWithIndexIter_fresh {p : Iter (Option α)} {xs : List (Py (Option α))} (f : Nat → α → Py (Option β)) (h : ResumesFresh p xs true) :
    ResumesFresh (mapWithIndexIter f p) (countedMap (mapWithIndexAt f) 0 xs) true := by
  obtain ⟨At, Ck, h⟩ := h.renew
  obtain ⟨At, Ck, h⟩ : Resumes (mapWithIndexIter f p.renew) (countedMap (mapWithIndexAt f) 0 xs) true := ⟨_, _, mapWithIndexIter_sim h⟩
  have hset : ∀ F x, (mapWithIndexIter f p).set F (mapWithIndexIter f p).init x = (mapWithIndexIter f p.renew).set F (mapWithIndexIter f p.renew).init x := by
    intro F x
    show (p.set F p.init x.1).bind _ = (p.set F p.init x.1).bind _
    congr 1
    funext y
    obtain ⟨ps, _ | e⟩ := y <;> rfl
  exact ⟨At, Ck, { init := h.init, bound := h.bound, next_item := h.next_item, next_stop := h.next_stop, get := h.get,
                   set := by intro _ _ _ _ _ _ _ hu; cases hu
                   set_init := fun hc hm => by
                     obtain ⟨s', g1, g2⟩ := h.set h.init hc hm
                     exact ⟨s', g1.mono (fun F e => (hset F _).trans e), g2⟩ }⟩

theorem flatMapLoop_iter_renew (p : Iter α) (f : α → Py (List β)) (F : Nat) : ∀ (n : Nat) (s : FlatMapState p.S p.C β),
    flatMapLoop p.renew f F n s = flatMapLoop p f F n s := by
  intro n
  induction n with
  | zero => intro s; rfl
  | succ n ih =>
    intro s
    simp only [flatMapLoop]
    cases s.buf[s.idx]? with
    | some b => rfl
    | none =>
      dsimp only
      show (p.next F (p.get s.ps).1).bind _ = (p.next F (p.get s.ps).1).bind _
      congr 1
      funext x
      obtain ⟨ps, q⟩ := x
      cases q with
      | stop => rfl
      | fail e => rfl
      | item a =>
        dsimp only
        cases f a with
        | error e => rfl
        | ok l => exact ih _

theorem flatMapIter_fresh {p : Iter α} (hpure : p.PureGet) {as : List α} {g : α → List β} {f : α → Py (List β)}
    (hp : ResumesFresh p (as.map Except.ok) true) (hf : ∀ a ∈ as, f a = .ok (g a)) :
    ResumesFresh (flatMapIter f p) ((as.flatMap g).map Except.ok) true := by
  obtain ⟨At, Ck, h, _⟩ := flatMapIter_sim hp.renew hf
  have hset : ∀ F c, (flatMapIter f p).set F (flatMapIter f p).init c = (flatMapIter f p.renew).set F (flatMapIter f p.renew).init c := by
    intro F c
    simp only [flatMapIter]
    show (p.set F (p.get p.init).1 c.1).bind _ = (p.set F p.init c.1).bind _
    rw [hpure]
    congr 1
    funext x
    obtain ⟨ps, _ | e⟩ := x
    · show (p.next F ps).bind _ = (p.next F ps).bind _
      congr 1
    · rfl
  exact ⟨At, Ck, { init := h.init, bound := h.bound
                   next_item := fun hs hx => by
                     obtain ⟨s', g1, g2⟩ := h.next_item hs hx
                     exact ⟨s', g1.mono (fun F e => (flatMapLoop_iter_renew p f F F _).symm.trans e), g2⟩
                   next_stop := fun hs he => by
                     obtain ⟨s', g1, g2⟩ := h.next_stop hs he
                     exact ⟨s', g1.mono (fun F e => (flatMapLoop_iter_renew p f F F _).symm.trans e), g2⟩
                   get := h.get
                   set := by intro _ _ _ _ _ _ _ hu; cases hu
                   set_init := fun hc hm => by
                     obtain ⟨s', g1, g2⟩ := h.set_init hc hm
                     exact ⟨s', g1.mono (fun F e => (hset F _).trans e), g2⟩ }⟩

/-! ### The lists -/

theorem someVal_some {r : Py (Option V)} {v : V} (h : someVal r = some v) : r = .ok (some v) := by
  cases r with
  | error e => cases h
  | ok x => cases h; rfl

theorem mapM_someVal {g : γ → Py (Option V)} : ∀ (l : List γ) (ys : List V), l.mapM (fun a => someVal (g a)) = some ys →
    l.map g = (ys.map some).map Except.ok := by
  intro l
  induction l with
  | nil => intro ys h; cases h; rfl
  | cons a l ih =>
    intro ys h
    rw [List.mapM_cons] at h
    simp only [Option.bind_eq_bind, Option.bind_eq_some_iff, Option.pure_def, Option.some.injEq] at h
    obtain ⟨v, hv, zs, hz, rfl⟩ := h
    simp only [List.map_cons, someVal_some hv, ih zs hz]

theorem countedMap_someVal {g : Nat → Option V → Py (Option V)} {f : V → Nat → Py (Option V)} (hg : ∀ k v, g k (some v) = f v k) :
    ∀ (xs ys : List V) (k : Nat), (xs.zipIdx k).mapM (fun (v, j) => someVal (f v j)) = some ys →
    countedMap g k ((xs.map some).map Except.ok) = (ys.map some).map Except.ok := by
  intro xs
  induction xs with
  | nil => intro ys k h; cases h; rfl
  | cons a l ih =>
    intro ys k h
    rw [List.zipIdx_cons, List.mapM_cons] at h
    simp only [Option.bind_eq_bind, Option.bind_eq_some_iff, Option.pure_def, Option.some.injEq] at h
    obtain ⟨v, hv, zs, hz, rfl⟩ := h
    simp only [List.map_cons, countedMap, hg, someVal_some hv]
    rw [ih zs (k + 1) hz]

theorem mapM_id_some : ∀ (l : List (Option V)) (ys : List V), l.mapM id = some ys → l = ys.map some := by
  intro l
  induction l with
  | nil => intro ys h; cases h; rfl
  | cons a l ih =>
    intro ys h
    rw [List.mapM_cons] at h
    simp only [Option.bind_eq_bind, Option.bind_eq_some_iff, Option.pure_def, Option.some.injEq, id] at h
    obtain ⟨v, rfl, zs, hz, rfl⟩ := h
    rw [List.map_cons, ← ih zs hz]

theorem okVal_some {r : Py α} {v : α} (h : okVal r = some v) : r = .ok v := by
  cases r with
  | error e => cases h
  | ok x => cases h; rfl

theorem flatMap_lists {f : Option V → Py (List (Option V))} : ∀ (xs : List V) (ls : List (List V)),
    xs.mapM (fun v => (okVal (f (some v))).bind (fun l => l.mapM id)) = some ls →
    (∀ a ∈ xs.map some, f a = .ok ((okVal (f a)).getD [])) ∧ (xs.map some).flatMap (fun a => (okVal (f a)).getD []) = ls.flatten.map some := by
  intro xs
  induction xs with
  | nil => intro ls h; cases h; exact ⟨by simp, rfl⟩
  | cons x xs ih =>
    intro ls h
    rw [List.mapM_cons] at h
    simp only [Option.bind_eq_bind, Option.bind_eq_some_iff, Option.pure_def, Option.some.injEq] at h
    obtain ⟨zs, ⟨l, hl, hz⟩, ms, hm, rfl⟩ := h
    obtain ⟨h1, h2⟩ := ih ms hm
    have hl' := okVal_some hl
    refine ⟨?_, ?_⟩
    · intro a ha
      rw [List.map_cons, List.mem_cons] at ha
      rcases ha with rfl | ha
      · rw [hl']; rfl
      · exact h1 a ha
    · rw [List.map_cons, List.flatMap_cons, h2, List.flatten_cons, List.map_append, hl]
      rw [← mapM_id_some l zs hz]
      rfl

theorem filter_lists {pred : Option V → Py Bool} : ∀ (xs : List V) (l : List (V × Bool)),
    xs.mapM (fun v => (okVal (pred (some v))).map (fun b => (v, b))) = some l →
    ((xs.map some).map Except.ok).filterMap (filterOutcome pred) = (((l.filter (·.2)).map (·.1)).map some).map Except.ok := by
  intro xs
  induction xs with
  | nil => intro l h; cases h; rfl
  | cons x xs ih =>
    intro l h
    rw [List.mapM_cons] at h
    simp only [Option.bind_eq_bind, Option.bind_eq_some_iff, Option.pure_def, Option.some.injEq, Option.map_eq_some_iff] at h
    obtain ⟨_, ⟨b, hb, rfl⟩, ms, hm, rfl⟩ := h
    have hb' := okVal_some hb
    rw [List.map_cons, List.map_cons, List.filterMap_cons]
    simp only [filterOutcome, hb']
    cases b with
    | true => simp only [List.filter_cons_of_pos, List.map_cons, ih ms hm]
    | false => simpa using ih ms hm

/-- One method. -/
theorem iterStep_fresh {rng : Nat → Nat → Option Int} {k : Nat} {c : Call V} {p : Iter (Option V)} {xs ys : List V} (hv : c.valid) (hpure : p.PureGet)
    (hr : c.run (rng k) xs = some ys) (h : ResumesFresh p ((xs.map some).map Except.ok) true) :
    ResumesFresh (iterStep rng k c p) ((ys.map some).map Except.ok) true := by
  cases c with
  | batch b drop fn =>
    have hb := batchIter_fresh (b := b) hv drop fn h
    have he : batchStream b drop fn (xs.map some) true = (ys.map some).map Except.ok := by
      rw [← mapM_someVal _ _ hr]
      unfold batchStream
      rw [List.length_map, Bool.not_true, Bool.or_false]
      apply List.map_congr_left
      intro i _
      unfold group
      rw [List.map_take, List.map_drop]
    rw [he] at hb
    exact hb
  | map f =>
    have hb := mapIter_fresh (fun v => f (some v)) h
    have he : ((xs.map some).map Except.ok).map (mapOutcome (fun v => f (some v))) = (ys.map some).map Except.ok := by
      rw [← mapM_someVal _ _ hr, List.map_map, List.map_map]
      rfl
    rw [he] at hb
    exact hb
  | randomMap f =>
    have hb := randomMapIter_fresh (fun v j => f (some v) (rng k j)) 0 1 h
    rw [countedMap_someVal (f := fun v j => f (some v) (rng k j)) (by intro j v; simp [randomMapAt]) xs ys 0 hr] at hb
    exact hb
  | mapWithIndex f =>
    have hb := mapWithIndexIter_fresh (fun i v => f i (some v)) h
    rw [countedMap_someVal (f := fun v j => f j (some v)) (by intro j v; rfl) xs ys 0 hr] at hb
    exact hb
  | flatMap f m =>
    simp only [Call.run, Option.map_eq_some_iff] at hr
    obtain ⟨ls, hl, rfl⟩ := hr
    obtain ⟨h1, h2⟩ := flatMap_lists xs ls hl
    have hb := flatMapIter_fresh hpure h h1
    rw [h2] at hb
    exact hb
  | filter pred =>
    simp only [Call.run, Option.map_eq_some_iff] at hr
    obtain ⟨l, hl, rfl⟩ := hr
    have hb := filterIter_fresh pred h
    rw [filter_lists xs l hl] at hb
    exact hb

theorem iterStep_pure {rng : Nat → Nat → Option Int} {k : Nat} {c : Call V} {p : Iter (Option V)} (hpure : p.PureGet) :
    (iterStep rng k c p).PureGet := by
  intro s
  cases c with
  | batch b drop fn => exact hpure s
  | map f => exact hpure s
  | randomMap f => exact Prod.ext (hpure s.1) rfl
  | mapWithIndex f => exact Prod.ext (hpure s.1) rfl
  | flatMap f m => rfl
  | filter pred => exact Prod.ext (hpure s.1) rfl

theorem dispatch_obj (c : Call V) : c.obj.dispatch = .ok c := by cases c <;> rfl

theorem apply_fresh {rng : Nat → Nat → Option Int} : ∀ (cs : List (Call V)) (k : Nat) (p : Iter (Option V)) (xs ys : List V), (∀ c ∈ cs, c.valid) →
    p.PureGet → runCalls rng k cs xs = some ys → ResumesFresh p ((xs.map some).map Except.ok) true →
    ∃ it, applyFrom (iterStep rng) k p (cs.map Call.obj) = .ok it ∧ ResumesFresh it ((ys.map some).map Except.ok) true := by
  intro cs
  induction cs with
  | nil => intro k p xs ys _ _ h hp; cases h; exact ⟨p, rfl, hp⟩
  | cons c cs ih =>
    intro k p xs ys hv hpure h hp
    simp only [runCalls, Option.bind_eq_some_iff] at h
    obtain ⟨zs, h1, h2⟩ := h
    obtain ⟨it, h3, h4⟩ := ih (k + 1) (iterStep rng k c p) zs ys (fun d hd => hv d (by simp [hd])) (iterStep_pure hpure) h2
      (iterStep_fresh (hv c (by simp)) hpure h1 hp)
    refine ⟨it, ?_, h4⟩
    rw [List.map_cons, applyFrom, dispatch_obj]
    exact h3

end Grain
