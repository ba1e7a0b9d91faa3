import Verif.Iter.PropsPipeline
import Verif.Multiprocess.LemmasSlice
/-
Iterators into which states are restored before anything was read from them, whatever the number of times they were asked for
their state (transformations ask their inputs for their states when they are made).
-/
namespace Grain

/-- Nothing but `get_state` was called on the object. -/
inductive Unread (it : Iter α) : it.S → Prop
  | init : Unread it it.init
  | get {s} : Unread it s → Unread it (it.get s).1

/-- A simulation in which states are restored into such objects only. -/
structure SimUnread (it : Iter α) (xs : List (Py α)) (ended : Bool) (At : it.S → Nat → Prop) (Ck : it.C → Nat → Prop) :
    Prop where
  init : At it.init 0
  bound : ∀ {s n}, At s n → n ≤ xs.length
  next_item : ∀ {s n r}, At s n → xs[n]? = some r →
    ∃ s', Ev (fun F => it.next F s = some (s', toRes r)) ∧ At s' (n + 1)
  next_stop : ∀ {s}, At s xs.length → ended = true →
    ∃ s', Ev (fun F => it.next F s = some (s', .stop)) ∧ At s' xs.length
  get : ∀ {s n}, At s n → At (it.get s).1 n ∧ Ck (it.get s).2 n
  set : ∀ {s c m}, Unread it s → Ck c m → m < xs.length ∨ ended = true →
    ∃ s', Ev (fun F => it.set F s c = some (s', none)) ∧ At s' m
  ck_bound : ∀ {c m}, Ck c m → m ≤ xs.length

/-- "Correctly checkpointing", states being restored into objects from which nothing was read. -/
def ResumesUnread (it : Iter α) (xs : List (Py α)) (ended : Bool) : Prop :=
  ∃ (At : it.S → Nat → Prop) (Ck : it.C → Nat → Prop), SimUnread it xs ended At Ck

theorem SimUnread.at {it : Iter α} {xs : List (Py α)} {ended : Bool} {At : it.S → Nat → Prop} {Ck : it.C → Nat → Prop}
    (h : SimUnread it xs ended At Ck) {s : it.S} (hs : Unread it s) : At s 0 := by
  induction hs with
  | init => exact h.init
  | get _ ih => exact (h.get ih).1

theorem ResumesUnread.fresh {it : Iter α} {xs : List (Py α)} {ended : Bool} (h : ResumesUnread it xs ended) : ResumesFresh it xs ended := by
  obtain ⟨At, Ck, h⟩ := h
  exact ⟨At, Ck, { init := h.init, bound := h.bound, next_item := h.next_item, next_stop := h.next_stop, get := h.get,
                   set := fun _ _ _ hu => absurd hu (by simp), set_init := fun hc hm => h.set .init hc hm }⟩

theorem Resumes.unread {it : Iter α} {xs : List (Py α)} {ended : Bool} (h : Resumes it xs ended) : ResumesUnread it xs ended := by
  obtain ⟨At, Ck, h⟩ := h
  have hat : ∀ {s}, Unread it s → At s 0 := by
    intro s hs
    induction hs with
    | init => exact h.init
    | get _ ih => exact (h.get ih).1
  exact ⟨At, Ck, { init := h.init, bound := h.bound, next_item := h.next_item, next_stop := h.next_stop, get := h.get,
                   set := fun hs hc hm => h.set (hat hs) hc hm, ck_bound := h.ck_bound }⟩

/-- The iterator with a `set_state` that replaces objects from which something was read by new ones. -/
noncomputable def Iter.tame (p : Iter α) : Iter α :=
  { p with set := fun F s c => p.set F (@ite _ (Unread p s) (Classical.propDecidable _) s p.init) c }

theorem Iter.tame_set {p : Iter α} {s : p.S} (hs : Unread p s) (F : Nat) (c : p.C) : p.tame.set F s c = p.set F s c := by
  show p.set F (@ite _ (Unread p s) (Classical.propDecidable _) s p.init) c = p.set F s c
  rw [if_pos hs]

theorem Iter.tame_set_read {p : Iter α} {s : p.S} (hs : ¬ Unread p s) (F : Nat) (c : p.C) : p.tame.set F s c = p.set F p.init c := by
  show p.set F (@ite _ (Unread p s) (Classical.propDecidable _) s p.init) c = p.set F p.init c
  rw [if_neg hs]

theorem ResumesUnread.tame {p : Iter α} {xs : List (Py α)} {ended : Bool} (h : ResumesUnread p xs ended) : Resumes p.tame xs ended := by
  obtain ⟨At, Ck, h⟩ := h
  refine ⟨At, Ck, { init := h.init, bound := h.bound, next_item := h.next_item, next_stop := h.next_stop, get := h.get,
                    set := ?_, ck_bound := h.ck_bound }⟩
  intro s n c m _ hc hm
  by_cases hs : Unread p s
  · obtain ⟨s', h1, h2⟩ := h.set hs hc hm
    exact ⟨s', h1.mono (fun F e => (Iter.tame_set hs F c).trans e), h2⟩
  · obtain ⟨s', h1, h2⟩ := h.set .init hc hm
    exact ⟨s', h1.mono (fun F e => (Iter.tame_set_read hs F c).trans e), h2⟩

/-- What has to be shown for a transformation of an iterator: its methods are those over the tame iterator, as long as states
are restored into objects from which nothing was read. -/
theorem SimUnread.mk' {it : Iter α} {xs : List (Py α)} {ended : Bool} {At : it.S → Nat → Prop} {Ck : it.C → Nat → Prop}
    {next : Nat → it.S → Option (it.S × Res α)} {get : it.S → it.S × it.C} {set : Nat → it.S → it.C → Option (it.S × Option Err)}
    (h : Sim { it with next := next, get := get, set := set } xs ended At Ck) (hn : ∀ F s, next F s = it.next F s)
    (hg : ∀ s, get s = it.get s) (hs : ∀ s, Unread it s → ∀ F c, set F s c = it.set F s c) : SimUnread it xs ended At Ck := by
  have hn' : next = it.next := by funext F s; exact hn F s
  have hg' : get = it.get := by funext s; exact hg s
  subst hn' hg'
  have hat : ∀ {s}, Unread it s → At s 0 := by
    intro s hu
    induction hu with
    | init => exact h.init
    | get _ ih => exact (h.get ih).1
  refine { init := h.init, bound := h.bound, next_item := h.next_item, next_stop := h.next_stop, get := h.get,
           set := ?_, ck_bound := h.ck_bound }
  intro s c m hu hc hm
  obtain ⟨s', h1, h2⟩ := h.set (hat hu) hc hm
  refine ⟨s', h1.mono (fun F e => ?_), h2⟩
  rw [← hs s hu F c]
  exact e

/-! ### Transformations -/

theorem bind_eq {A B : Type} {x y : Option A} (h : x = y) {f g : A → Option B} (hfg : ∀ a, f a = g a) : x.bind f = y.bind g := by
  subst h
  cases x with
  | none => rfl
  | some a => exact hfg a

theorem filterLoop_tame (p : Iter α) (pred : α → Py Bool) (thr : Option Threshold) (F : Nat) : ∀ (n : Nat) (s : p.S × Checker),
    filterLoop p.tame pred thr F n s = filterLoop p pred thr F n s := by
  intro n
  induction n with
  | zero => intro s; rfl
  | succ n ih =>
    intro s
    simp only [filterLoop]
    show (p.next F s.1).bind _ = (p.next F s.1).bind _
    congr 1
    funext x
    obtain ⟨ps, q⟩ := x
    cases q with
    | stop => rfl
    | fail e => rfl
    | item a =>
      dsimp only
      cases pred a with
      | error e => rfl
      | ok b =>
        dsimp only
        rcases s.2.check thr b with ⟨c, _ | e⟩
        · cases b with
          | true => rfl
          | false => exact ih (ps, c)
        · rfl

theorem batchLoop_tame (p : Iter α) (drop : Bool) (F : Nat) : ∀ (n : Nat) (s : p.S) (vs : List α),
    batchLoop p.tame drop F n s vs = batchLoop p drop F n s vs := by
  intro n
  induction n with
  | zero => intro s vs; rfl
  | succ n ih =>
    intro s vs
    simp only [batchLoop]
    show (p.next F s).bind _ = (p.next F s).bind _
    congr 1
    funext x
    obtain ⟨ps, q⟩ := x
    cases q with
    | stop => rfl
    | fail e => rfl
    | item a => exact ih _ _

theorem rebatchLoop_tame (p : Iter (List α)) (drop : Bool) (F : Nat) : ∀ (n needed : Nat) (acc : Option (List α)) (s : RebatchState p.S p.C α),
    rebatchLoop p.tame drop F n needed acc s = rebatchLoop p drop F n needed acc s := by
  intro n
  induction n with
  | zero => intro needed acc s; rfl
  | succ n ih =>
    intro needed acc s
    simp only [rebatchLoop]
    split
    · rfl
    · show (rebatchFetch p F s).bind _ = (rebatchFetch p F s).bind _
      congr 1
      funext x
      obtain ⟨s, q⟩ := x
      rcases q with _ | q
      · dsimp only
        split
        · rfl
        · exact ih _ _ _
      · cases q <;> rfl

theorem packLoop_tame {E R : Type} (pk : Packer E R) (order : Nat → List R → List Nat) (p : Iter E) (F : Nat) : ∀ (n : Nat) (s : PackState pk.B R p.S p.C),
    packLoop pk order p.tame F n s = packLoop pk order p F n s := by
  intro n
  induction n with
  | zero => intro s; rfl
  | succ n ih =>
    intro s
    simp only [packLoop]
    show (p.next F (p.get s.parent).1).bind _ = (p.next F (p.get s.parent).1).bind _
    congr 1
    funext x
    obtain ⟨ps, q⟩ := x
    cases q with
    | stop => rfl
    | fail e => rfl
    | item a =>
      dsimp only
      rcases pk.tryAdd (s.current.getD pk.new) a with e | _ | b
      · rfl
      · rfl
      · exact ih _

theorem mapIter_unread {p : Iter (Option α)} {xs : List (Py (Option α))} {ended : Bool} (f : α → Py (Option β))
    (h : ResumesUnread p xs ended) : ResumesUnread (mapIter f p) (xs.map (mapOutcome f)) ended := by
  obtain ⟨At, Ck, h⟩ : Resumes (mapIter f p.tame) (xs.map (mapOutcome f)) ended := by
    obtain ⟨_, _, h⟩ := h.tame; exact ⟨_, _, mapIter_sim h⟩
  have hu : ∀ s, Unread (mapIter f p) s → Unread p (s) := by
    intro s hs
    induction hs with
    | init => exact .init
    | get _ ih => exact .get ih
  refine ⟨At, Ck, SimUnread.mk' (next := (mapIter f p.tame).next) (get := (mapIter f p.tame).get) (set := (mapIter f p.tame).set)
    { init := h.init, bound := h.bound, next_item := h.next_item, next_stop := h.next_stop, get := h.get, set := h.set, ck_bound := h.ck_bound }
    (fun F s => rfl) (fun s => rfl) (fun s hs F c => ?_)⟩
  exact Iter.tame_set (hu s hs) F c

theorem randomMapIter_unread {p : Iter (Option α)} {xs : List (Py (Option α))} {ended : Bool} (f : α → Nat → Py (Option β)) (i k : Nat)
    (h : ResumesUnread p xs ended) : ResumesUnread (randomMapIter f i k p) (countedMap (randomMapAt f i k) 0 xs) ended := by
  obtain ⟨At, Ck, h⟩ : Resumes (randomMapIter f i k p.tame) (countedMap (randomMapAt f i k) 0 xs) ended := by
    obtain ⟨_, _, h⟩ := h.tame; exact ⟨_, _, randomMapIter_sim h⟩
  have hu : ∀ s, Unread (randomMapIter f i k p) s → Unread p (s.1) := by
    intro s hs
    induction hs with
    | init => exact .init
    | get _ ih => exact .get ih
  refine ⟨At, Ck, SimUnread.mk' (next := (randomMapIter f i k p.tame).next) (get := (randomMapIter f i k p.tame).get) (set := (randomMapIter f i k p.tame).set)
    { init := h.init, bound := h.bound, next_item := h.next_item, next_stop := h.next_stop, get := h.get, set := h.set, ck_bound := h.ck_bound }
    (fun F s => rfl) (fun s => rfl) (fun s hs F c => ?_)⟩
  exact bind_eq (Iter.tame_set (hu s hs) F c.1) (fun a => by rcases a with ⟨_, _ | _⟩ <;> rfl)

theorem mapWithIndexIter_unread {p : Iter (Option α)} {xs : List (Py (Option α))} {ended : Bool} (f : Nat → α → Py (Option β))
    (h : ResumesUnread p xs ended) : ResumesUnread (mapWithIndexIter f p) (countedMap (mapWithIndexAt f) 0 xs) ended := by
  obtain ⟨At, Ck, h⟩ : Resumes (mapWithIndexIter f p.tame) (countedMap (mapWithIndexAt f) 0 xs) ended := by
    obtain ⟨_, _, h⟩ := h.tame; exact ⟨_, _, mapWithIndexIter_sim h⟩
  have hu : ∀ s, Unread (mapWithIndexIter f p) s → Unread p (s.1) := by
    intro s hs
    induction hs with
    | init => exact .init
    | get _ ih => exact .get ih
  refine ⟨At, Ck, SimUnread.mk' (next := (mapWithIndexIter f p.tame).next) (get := (mapWithIndexIter f p.tame).get) (set := (mapWithIndexIter f p.tame).set)
    { init := h.init, bound := h.bound, next_item := h.next_item, next_stop := h.next_stop, get := h.get, set := h.set, ck_bound := h.ck_bound }
    (fun F s => rfl) (fun s => rfl) (fun s hs F c => ?_)⟩
  exact bind_eq (Iter.tame_set (hu s hs) F c.1) (fun a => by rcases a with ⟨_, _ | _⟩ <;> rfl)

theorem limitIter_unread {p : Iter α} {xs : List (Py α)} {ended : Bool} (n : Nat)
    (h : ResumesUnread p xs ended) : ResumesUnread (limitIter n p) (limitStream n xs) (ended || decide ((limitStream n xs).length < xs.length)) := by
  obtain ⟨At, Ck, h⟩ : Resumes (limitIter n p.tame) (limitStream n xs) (ended || decide ((limitStream n xs).length < xs.length)) := by
    obtain ⟨_, _, h⟩ := h.tame; exact ⟨_, _, limitIter_sim h⟩
  have hu : ∀ s, Unread (limitIter n p) s → Unread p (s.1) := by
    intro s hs
    induction hs with
    | init => exact .init
    | get _ ih => exact .get ih
  refine ⟨At, Ck, SimUnread.mk' (next := (limitIter n p.tame).next) (get := (limitIter n p.tame).get) (set := (limitIter n p.tame).set)
    { init := h.init, bound := h.bound, next_item := h.next_item, next_stop := h.next_stop, get := h.get, set := h.set, ck_bound := h.ck_bound }
    (fun F s => rfl) (fun s => rfl) (fun s hs F c => ?_)⟩
  exact bind_eq (Iter.tame_set (hu s hs) F c.1) (fun a => by rcases a with ⟨_, _ | _⟩ <;> rfl)

theorem filterIter_unread {p : Iter α} {xs : List (Py α)} {ended : Bool} (pred : α → Py Bool)
    (h : ResumesUnread p xs ended) : ResumesUnread (filterIter pred none p) (xs.filterMap (filterOutcome pred)) ended := by
  obtain ⟨At, Ck, h⟩ : Resumes (filterIter pred none p.tame) (xs.filterMap (filterOutcome pred)) ended := by
    exact filterIter_resumes h.tame
  have hu : ∀ s, Unread (filterIter pred none p) s → Unread p (s.1) := by
    intro s hs
    induction hs with
    | init => exact .init
    | get _ ih => exact .get ih
  refine ⟨At, Ck, SimUnread.mk' (next := (filterIter pred none p.tame).next) (get := (filterIter pred none p.tame).get) (set := (filterIter pred none p.tame).set)
    { init := h.init, bound := h.bound, next_item := h.next_item, next_stop := h.next_stop, get := h.get, set := h.set, ck_bound := h.ck_bound }
    (fun F s => filterLoop_tame p pred none F F s) (fun s => rfl) (fun s hs F c => ?_)⟩
  exact bind_eq (Iter.tame_set (hu s hs) F c) (fun a => by rcases a with ⟨_, _ | _⟩ <;> rfl)

theorem batchIter_unread {p : Iter α} {as : List α} {ended : Bool} (b : Nat) (hb : 0 < b) (drop : Bool) (f : List α → Py β)
    (h : ResumesUnread p (as.map Except.ok) ended) : ResumesUnread (batchIter b drop f p) (batchStream b drop f as ended) ended := by
  obtain ⟨At, Ck, h⟩ : Resumes (batchIter b drop f p.tame) (batchStream b drop f as ended) ended := by
    exact batchIter_resumes h.tame b hb drop f
  have hu : ∀ s, Unread (batchIter b drop f p) s → Unread p (s) := by
    intro s hs
    induction hs with
    | init => exact .init
    | get _ ih => exact .get ih
  refine ⟨At, Ck, SimUnread.mk' (next := (batchIter b drop f p.tame).next) (get := (batchIter b drop f p.tame).get) (set := (batchIter b drop f p.tame).set)
    { init := h.init, bound := h.bound, next_item := h.next_item, next_stop := h.next_stop, get := h.get, set := h.set, ck_bound := h.ck_bound }
    (fun F s => congrArg (fun x => Option.bind x _) (batchLoop_tame p drop F b s [])) (fun s => rfl) (fun s hs F c => ?_)⟩
  exact Iter.tame_set (hu s hs) F c

theorem rebatchIter_unread {p : Iter (List α)} {bs : List (List α)} {ended : Bool} (b : Nat) (hb : 0 < b) (drop : Bool)
    (hne : ∀ x ∈ bs, x ≠ []) (hend : ended = true → drop = false → b ∣ bs.flatten.length → bs = [])
    (h : ResumesUnread p (bs.map Except.ok) ended) : ResumesUnread (rebatchIter b drop p) (batchStream b drop Except.ok bs.flatten ended) ended := by
  obtain ⟨At, Ck, h⟩ : Resumes (rebatchIter b drop p.tame) (batchStream b drop Except.ok bs.flatten ended) ended := by
    exact rebatchIter_resumes h.tame hne b hb drop hend
  have hu : ∀ s, Unread (rebatchIter b drop p) s → Unread p (s.ps) := by
    intro s hs
    induction hs with
    | init => exact .get .init
    | get _ ih => exact ih
  refine ⟨At, Ck, SimUnread.mk' (next := (rebatchIter b drop p.tame).next) (get := (rebatchIter b drop p.tame).get) (set := (rebatchIter b drop p.tame).set)
    { init := h.init, bound := h.bound, next_item := h.next_item, next_stop := h.next_stop, get := h.get, set := h.set, ck_bound := h.ck_bound }
    (fun F s => rebatchLoop_tame p drop F F b none s) (fun s => rfl) (fun s hs F c => ?_)⟩
  exact bind_eq (Iter.tame_set (hu s hs) F c.1) (fun a => by rcases a with ⟨_, _ | _⟩ <;> rfl)

theorem packIter_unread {E R : Type} {p : Iter E} {es : List E} {ended : Bool} (pk : Packer E R) (order : Nat → List R → List Nat) (hord : IsOrder order)
    {gs : List (List E)} {rest : List E} (hes : es = gs.flatten ++ rest) (hgs : Groups pk ended gs rest)
    (h : ResumesUnread p (es.map Except.ok) ended) : ResumesUnread (packIter pk order p) ((packStream pk order 0 gs).map Except.ok) ended := by
  obtain ⟨At, Ck, h⟩ : Resumes (packIter pk order p.tame) ((packStream pk order 0 gs).map Except.ok) ended := by
    obtain ⟨_, _, h⟩ := h.tame; exact ⟨_, _, packIter_sim hord h hes hgs⟩
  have hu : ∀ s, Unread (packIter pk order p) s → Unread p (s.parent) := by
    intro s hs
    induction hs with
    | init => exact .get .init
    | get _ ih => exact ih
  refine ⟨At, Ck, SimUnread.mk' (next := (packIter pk order p.tame).next) (get := (packIter pk order p.tame).get) (set := (packIter pk order p.tame).set)
    { init := h.init, bound := h.bound, next_item := h.next_item, next_stop := h.next_stop, get := h.get, set := h.set, ck_bound := h.ck_bound }
    (fun F s => by
      rcases s with ⟨ps, cu, l, cp, _ | ⟨rows, ord⟩, r, k⟩
      · exact packLoop_tame pk order p F F _
      · rfl) (fun s => rfl) (fun s hs F c => ?_)⟩
  exact bind_eq (Iter.tame_set (hu s hs) F c.1) (fun a => by rcases a with ⟨_, _ | _⟩ <;> rfl)

/-! ### Several inputs -/

theorem setAll_tame {n : Nat} (ps : Fin n → Iter α) (F : Nat) (cs : ∀ i, (ps i).C) : ∀ (is : List (Fin n)) (s : ∀ i, (ps i).S), is.Nodup →
    (∀ i ∈ is, Unread (ps i) (s i)) → setAll (fun i => (ps i).tame) F cs is s = setAll ps F cs is s := by
  intro is
  induction is with
  | nil => intro s _ _; rfl
  | cons i is ih =>
    intro s hnd hu
    simp only [setAll]
    refine bind_eq (Iter.tame_set (hu i (List.mem_cons_self ..)) F (cs i)) (fun a => ?_)
    obtain ⟨si, _ | e⟩ := a
    · refine ih (Function.update s i si) (List.nodup_cons.1 hnd).2 (fun j hj => ?_)
      have hji : j ≠ i := fun e => (List.nodup_cons.1 hnd).1 (e ▸ hj)
      have he : Function.update (β := fun i => (ps i).S) s i si j = s j := Function.update_of_ne hji _ _
      exact he.symm ▸ hu j (List.mem_cons_of_mem _ hj)
    · rfl

theorem nextAll_tame {n : Nat} (ps : Fin n → Iter α) (F : Nat) : ∀ (is : List (Fin n)) (s : ∀ i, (ps i).S) (acc : List α),
    nextAll (fun i => (ps i).tame) F is s acc = nextAll ps F is s acc := by
  intro is
  induction is with
  | nil => intro s acc; rfl
  | cons i is ih =>
    intro s acc
    simp only [nextAll]
    refine bind_eq (rfl : (ps i).next F (s i) = (ps i).next F (s i)) (fun a => ?_)
    obtain ⟨si, q⟩ := a
    cases q with
    | item a => exact ih _ _
    | stop => rfl
    | fail e => rfl

theorem zipCheckRest_tame {n : Nat} (ps : Fin n → Iter α) (F : Nat) : ∀ (is : List (Fin n)) (s : ∀ i, (ps i).S),
    zipCheckRest (fun i => (ps i).tame) F is s = zipCheckRest ps F is s := by
  intro is
  induction is with
  | nil => intro s; rfl
  | cons i is ih =>
    intro s
    simp only [zipCheckRest]
    refine bind_eq (rfl : (ps i).next F (s i) = (ps i).next F (s i)) (fun a => ?_)
    obtain ⟨si, q⟩ := a
    cases q with
    | item a => rfl
    | stop => exact ih _
    | fail e => rfl

theorem zipIter_unread {n : Nat} (hn : 0 < n) (strict : Bool) {ps : Fin n → Iter α} {as : Fin n → List α} {ended : Bool}
    (hs : strict = true → ended = true → ∀ i j, (as i).length = (as j).length)
    (h : ∀ i, ResumesUnread (ps i) ((as i).map Except.ok) ended) :
    ResumesUnread (zipIter strict ps) ((zipStream as).map Except.ok) ended := by
  obtain ⟨At, Ck, h⟩ : Resumes (zipIter strict (fun i => (ps i).tame)) ((zipStream as).map Except.ok) ended :=
    zipIter_resumes hn strict (fun i => (h i).tame) hs
  have hu : ∀ s, Unread (zipIter strict ps) s → ∀ i, Unread (ps i) (s i) := by
    intro s hs
    induction hs with
    | init => exact fun i => .init
    | get _ ih => exact fun i => .get (ih i)
  refine ⟨At, Ck, SimUnread.mk' (next := (zipIter strict (fun i => (ps i).tame)).next) (get := (zipIter strict (fun i => (ps i).tame)).get)
    (set := (zipIter strict (fun i => (ps i).tame)).set)
    { init := h.init, bound := h.bound, next_item := h.next_item, next_stop := h.next_stop, get := h.get, set := h.set, ck_bound := h.ck_bound }
    (fun F s => ?_) (fun s => rfl) (fun s hs F c => setAll_tame ps F c _ s (List.nodup_finRange n) (fun i _ => hu s hs i))⟩
  refine bind_eq (nextAll_tame ps F (List.finRange n) s []) (fun a => ?_)
  obtain ⟨s, acc, _ | ⟨i, q⟩⟩ := a
  · rfl
  · cases q with
    | fail e => rfl
    | item a =>
      dsimp only
      split
      · split
        · rfl
        · exact zipCheckRest_tame ps F _ s
      · rfl
    | stop =>
      dsimp only
      split
      · split
        · rfl
        · exact zipCheckRest_tame ps F _ s
      · rfl

/-- The state of `mixIter` over the tame iterators is that of `mixIter` over the iterators. -/
def MixState.untame {n : Nat} {ps : Fin n → Iter α} (s : MixState (fun i => (ps i).tame)) : MixState ps :=
  { parents := s.parents, index := s.index, stop := s.stop }

def MixState.tamed {n : Nat} {ps : Fin n → Iter α} (s : MixState ps) : MixState (fun i => (ps i).tame) :=
  { parents := s.parents, index := s.index, stop := s.stop }

theorem mixIter_next_tame {n : Nat} (proportions : List Nat) (ps : Fin n → Iter α) (F : Nat) (s : MixState ps) :
    (mixIter proportions ps).next F s = ((mixIter proportions (fun i => (ps i).tame)).next F s.tamed).map (fun q => (q.1.untame, q.2)) := by
  simp only [mixIter, MixState.tamed]
  split
  · rfl
  · cases datasetAndKey (s.index : Int) proportions with
    | error e => rfl
    | ok dk =>
      obtain ⟨d, k⟩ := dk
      dsimp only
      split
      · rename_i hd
        show Option.bind _ _ = Option.map _ (Option.bind ((ps ⟨d, hd⟩).next F (s.parents ⟨d, hd⟩)) _)
        cases (ps ⟨d, hd⟩).next F (s.parents ⟨d, hd⟩) with
        | none => rfl
        | some q =>
          obtain ⟨si, r⟩ := q
          cases r <;> rfl
      · rfl

theorem mixIter_set_tame {n : Nat} (proportions : List Nat) (ps : Fin n → Iter α) (F : Nat) (s : MixState ps) (c : (mixIter proportions ps).C)
    (hu : ∀ i, Unread (ps i) (s.parents i)) :
    (mixIter proportions ps).set F s c = ((mixIter proportions (fun i => (ps i).tame)).set F s.tamed c).map (fun q => (q.1.untame, q.2)) := by
  have he := setAll_tame ps F c.1 _ s.parents (List.nodup_finRange n) (fun i _ => hu i)
  show Option.bind (setAll ps F c.1 (List.finRange n) s.parents) _ =
    Option.map _ (Option.bind (setAll (fun i => (ps i).tame) F c.1 (List.finRange n) s.parents) _)
  rw [he]
  cases setAll ps F c.1 (List.finRange n) s.parents with
  | none => rfl
  | some q =>
    obtain ⟨q, _ | e⟩ := q <;> rfl

theorem mixIter_unread {n : Nat} (hn : 0 < n) (proportions : List Nat) (hlen : proportions.length = n)
    (hpos : ∀ p ∈ proportions, 0 < p) {ps : Fin n → Iter α} {xs : Fin n → List (Py α)} {ys : List (Py α)}
    (hys : ∀ m, m < ys.length → ys[m]? = mixOutcome proportions xs m)
    (herr : ∀ k e, ys[k]? = some (.error e) → k + 1 = ys.length)
    (hend : (∃ e, ys.getLast? = some (.error e)) ∨ mixOutcome proportions xs ys.length = none)
    (h : ∀ i, ResumesUnread (ps i) (xs i) true) : ResumesUnread (mixIter proportions ps) ys true := by
  obtain ⟨At, Ck, h⟩ : Resumes (mixIter proportions (fun i => (ps i).tame)) ys true :=
    mixIter_resumes hn hlen hpos (fun i => (h i).tame) hys (fun k e h => ⟨herr k e h, rfl⟩)
      (fun _ => hend.imp id (fun h => ⟨rfl, h⟩)) (fun h => by cases h)
  have hu : ∀ s, Unread (mixIter proportions ps) s → (∀ i, Unread (ps i) (s.parents i)) ∧ At s.tamed 0 := by
    intro s hs
    induction hs with
    | init => exact ⟨fun i => .init, h.init⟩
    | get _ ih => exact ⟨fun i => .get (ih.1 i), (h.get ih.2).1⟩
  refine ⟨fun s m => At s.tamed m, Ck, { init := h.init, bound := h.bound, next_item := ?_, next_stop := ?_, get := fun hs => h.get hs,
                                          set := ?_, ck_bound := h.ck_bound }⟩
  · intro s m r hs hr
    obtain ⟨s', h1, h2⟩ := h.next_item hs hr
    refine ⟨s'.untame, h1.mono (fun F e => ?_), h2⟩
    exact (mixIter_next_tame proportions ps F s).trans (congrArg (Option.map _) e)
  · intro s hs he
    obtain ⟨s', h1, h2⟩ := h.next_stop hs he
    refine ⟨s'.untame, h1.mono (fun F e => ?_), h2⟩
    exact (mixIter_next_tame proportions ps F s).trans (congrArg (Option.map _) e)
  · intro s c m hs hc hm
    obtain ⟨s', h1, h2⟩ := h.set (hu s hs).2 hc hm
    refine ⟨s'.untame, h1.mono (fun F e => ?_), h2⟩
    exact (mixIter_set_tame proportions ps F s c (hu s hs).1).trans (congrArg (Option.map _) e)

/-! ### Interleaving -/

/-- An interleaving iterator from which nothing was read: the open iterators are such themselves. -/
structure ILUnread (f : IterFam α) (n : Nat) (s : ILState f.S f.C) : Prop where
  started : s.started = false
  slots : ∀ j, s.slots j = none ∨ ∃ st, s.slots j = some (s.indices j, st) ∧ Unread (f.iter (s.indices j)) st ∧ s.indices j < n
  ex : ∀ j, s.exState j = none
  kept : ∀ j, s.kept j = none

theorem ilGetLoop_unread (f : IterFam α) (n : Nat) : ∀ (is : List Nat) (s : ILState f.S f.C) (states : Nat → Option f.C), ILUnread f n s →
    ILUnread f n (ilGetLoop f n is s states).1 := by
  intro is
  induction is with
  | nil => intro s states h; exact h
  | cons i is ih =>
    intro s states h
    simp only [ilGetLoop]
    rcases h.slots i with hi | ⟨st, hi, hst, hlt⟩
    · simp only [hi, h.ex i]
      split
      · exact h
      · rename_i hlt
        refine ih _ _ ⟨h.started, ?_, h.ex, h.kept⟩
        intro j
        dsimp only
        simp only [h.started, Bool.false_eq_true, if_false]
        by_cases hji : j = i
        · subst hji
          rw [Function.update_self, Function.update_self]
          exact Or.inr ⟨_, rfl, Unread.get (it := f.iter s.nextDs) .init, by omega⟩
        · rw [Function.update_of_ne hji, Function.update_of_ne hji]
          exact h.slots j
    · simp only [hi]
      refine ih _ _ ⟨h.started, ?_, h.ex, h.kept⟩
      intro j
      dsimp only
      by_cases hji : j = i
      · subst hji
        rw [Function.update_self]
        exact Or.inr ⟨_, rfl, Unread.get (it := f.iter (s.indices j)) hst, hlt⟩
      · rw [Function.update_of_ne hji]
        exact h.slots j

theorem ilGet_unread {f : IterFam α} {n L : Nat} {s : ILState f.S f.C} (h : ILUnread f n s) : ILUnread f n (ilGet f n L s).1 := by
  have hg := ilGetLoop_unread f n (List.range L) s (fun _ => none) h
  unfold ilGet
  dsimp only
  split
  · exact hg
  · exact ⟨hg.started, hg.slots, hg.ex, hg.kept⟩

theorem interleave_unread {f : IterFam α} {n cycle : Nat} (keep : Bool) {xs : Nat → List (Py α)} (hn : 0 < n) (hcyc : 0 < cycle)
    (h : ∀ d, d < n → ResumesUnread (f.iter d) (xs d) true) {t : List (Nat × Py α)}
    (ht : ATrace xs true n (min cycle n) (aStart (min cycle n)) t) : ResumesUnread (interleaveIter f n cycle keep) (t.map (·.2)) true := by
  obtain ⟨At, Ck, hs⟩ : ∃ (At : Nat → f.S → Nat → Prop) (Ck : Nat → f.C → Nat → Prop), ∀ d, d < n →
      SimUnread (f.iter d) (xs d) true (At d) (Ck d) := by
    have h' : ∀ d, ∃ p : (f.S → Nat → Prop) × (f.C → Nat → Prop), d < n → SimUnread (f.iter d) (xs d) true p.1 p.2 := by
      intro d
      by_cases hd : d < n
      · obtain ⟨A, C, hs⟩ := h d hd
        exact ⟨(A, C), fun _ => hs⟩
      · exact ⟨(fun _ _ => False, fun _ _ => False), fun hd' => absurd hd' hd⟩
    exact ⟨fun d => (h' d).choose.1, fun d => (h' d).choose.2, fun d hd => (h' d).choose_spec hd⟩
  have hs1 : ∀ d, d < n → SimWhen (fun _ => false) (f.iter d) (xs d) true (At d) (Ck d) := by
    intro d hd
    have h := hs d hd
    exact { init := h.init, bound := h.bound, next_item := h.next_item, next_stop := h.next_stop, get := h.get,
            set := fun _ _ _ hu => absurd hu (by simp), set_init := fun hc hm => h.set .init hc hm }
  have hL : 0 < min cycle n := by omega
  have hsim := (interleave_sim (keep := keep) hs1 hL ht).when
  refine ⟨fun s m => m ≤ t.length ∧ ∃ A, ILRel xs true At Ck (endCk xs Ck) true n (min cycle n) false s A ∧
    ATrace xs true n (min cycle n) A (t.drop m), fun c m => m ≤ t.length ∧ ∃ A, ILCkRel xs true Ck (endCk xs Ck) true n (min cycle n) false c A ∧
    ATrace xs true n (min cycle n) A (t.drop m), ?_⟩
  refine { init := hsim.init, bound := hsim.bound, next_item := hsim.next_item, next_stop := hsim.next_stop,
           get := fun hs => hsim.get hs, set := ?_, ck_bound := fun hc => by rw [List.length_map]; exact hc.1 }
  rintro s c m hs' ⟨hm, A, hck, htr⟩ _
  have hu : ILUnread f n s := by
    induction hs' with
    | init => exact ⟨rfl, fun _ => Or.inl rfl, fun _ => rfl, fun _ => rfl⟩
    | get _ ih => exact ilGet_unread ih
  obtain ⟨s', g1, g2⟩ := il_setR hs1 (Nat.min_le_right _ _) (fun _ _ _ h => h) (keep := keep) (tn' := false)
    (R := fun d st => Unread (f.iter d) st) (fun d st ck m hd hst hc hm => (hs d hd).set hst hc hm)
    (s := s) hck (fun _ _ _ _ _ => Or.inr rfl) (by
      intro j d o hj
      rw [hu.kept j] at hj
      cases hj) (fun j _ => ⟨hu.slots j, Or.inl (hu.ex j)⟩)
  exact ⟨s', g1, hm, A, g2, htr⟩

theorem ofIters_unread {it : Nat → Iter α} {d : Nat} {xs : List (Py α)} {ended : Bool} (h : ResumesUnread (it d) xs ended) :
    ResumesUnread ((IterFam.ofIters it).iter d) xs ended := by
  obtain ⟨At, Ck, h⟩ := h
  have hw : SimWhen (fun _ => false) (it d) xs ended At Ck :=
    { init := h.init, bound := h.bound, next_item := h.next_item, next_stop := h.next_stop, get := h.get,
      set := fun _ _ _ hu => absurd hu (by simp), set_init := fun hc hm => h.set .init hc hm }
  have hs := ofIters_sim hw
  refine ⟨fun s m => ∃ t : (it d).S, s = (⟨d, t⟩ : (d : Nat) × (it d).S) ∧ At t m, fun s m => ∃ c : (it d).C, s = (⟨d, c⟩ : (d : Nat) × (it d).C) ∧ Ck c m, ?_⟩
  refine { init := hs.init, bound := hs.bound, next_item := hs.next_item, next_stop := hs.next_stop, get := fun h => hs.get h,
           set := ?_, ck_bound := fun hc => by obtain ⟨c, _, hc⟩ := hc; exact h.ck_bound hc }
  rintro s _ m hu ⟨c, rfl, hc⟩ hm
  obtain ⟨t, rfl, ht⟩ : ∃ t : (it d).S, s = (⟨d, t⟩ : (d : Nat) × (it d).S) ∧ Unread (it d) t := by
    induction hu with
    | init => exact ⟨_, rfl, .init⟩
    | get _ ih =>
      obtain ⟨t, rfl, ht⟩ := ih
      exact ⟨_, rfl, .get ht⟩
  obtain ⟨t', h1, h2⟩ := h.set ht hc hm
  refine ⟨(⟨d, t'⟩ : (d : Nat) × (it d).S), h1.mono ?_, t', rfl, h2⟩
  intro F e
  show (if h : d = d then ((it d).set F t (h ▸ c)).map _ else _) = _
  rw [dif_pos rfl]
  show ((it d).set F t c).map _ = _
  rw [e]; rfl

end Grain
