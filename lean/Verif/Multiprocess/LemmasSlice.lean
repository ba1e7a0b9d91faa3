import Verif.Multiprocess.SpecSlice
import Verif.Multiprocess.Props
import Verif.ElemSpec.Lemmas
import Verif.Sharding.Props
import Verif.Iter.Repeat
import Verif.Iter.FilterBatch
import Verif.Iter.FlatMap
/-
Lemmas for the sliced pipelines.
-/
namespace Grain

theorem ofIters_sim {it : Nat → Iter α} {d : Nat} {xs : List (Py α)} {ended : Bool} {At : (it d).S → Nat → Prop} {Ck : (it d).C → Nat → Prop}
    (h : SimWhen (fun _ => false) (it d) xs ended At Ck) : SimWhen (fun _ => false) ((IterFam.ofIters it).iter d) xs ended
      (fun (s : (d : Nat) × (it d).S) n => ∃ t, s = ⟨d, t⟩ ∧ At t n) (fun (c : (d : Nat) × (it d).C) n => ∃ t, c = ⟨d, t⟩ ∧ Ck t n) := by
  refine { init := ⟨_, rfl, h.init⟩, bound := fun ⟨_, _, hs⟩ => h.bound hs, next_item := ?_, next_stop := ?_, get := ?_, set := ?_,
           set_init := ?_ }
  · rintro _ n r ⟨t, rfl, hs⟩ hr
    obtain ⟨t', h1, h2⟩ := h.next_item hs hr
    refine ⟨(⟨d, t'⟩ : (d : Nat) × (it d).S), h1.mono ?_, t', rfl, h2⟩
    intro F e
    show ((it d).next F t).map _ = _
    rw [e]; rfl
  · rintro _ ⟨t, rfl, hs⟩ he
    obtain ⟨t', h1, h2⟩ := h.next_stop hs he
    refine ⟨(⟨d, t'⟩ : (d : Nat) × (it d).S), h1.mono ?_, t', rfl, h2⟩
    intro F e
    show ((it d).next F t).map _ = _
    rw [e]; rfl
  · rintro _ n ⟨t, rfl, hs⟩
    exact ⟨⟨_, rfl, (h.get hs).1⟩, ⟨_, rfl, (h.get hs).2⟩⟩
  · intro _ _ _ _ _ _ _ hu; cases hu
  · rintro _ m ⟨c, rfl, hc⟩ hm
    obtain ⟨t', h1, h2⟩ := h.set_init hc hm
    refine ⟨(⟨d, t'⟩ : (d : Nat) × (it d).S), h1.mono ?_, t', rfl, h2⟩
    intro F e
    show (if h : d = d then ((it d).set F (it d).init (h ▸ c)).map _ else _) = _
    rw [dif_pos rfl]
    show ((it d).set F (it d).init c).map _ = _
    rw [e]; rfl

theorem ofIters_fresh {it : Nat → Iter α} {d : Nat} {xs : List (Py α)} {ended : Bool} (h : ResumesFresh (it d) xs ended) :
    ResumesFresh ((IterFam.ofIters it).iter d) xs ended := by
  obtain ⟨At, Ck, h⟩ := h
  exact ⟨_, _, ofIters_sim h⟩

theorem ofIters_asked {it : Nat → Iter α} {d : Nat} {xs : List (Py α)} {ended : Bool} (h : ResumesAsked (it d) xs ended) :
    ResumesAsked ((IterFam.ofIters it).iter d) xs ended := by
  obtain ⟨At, Ck, h, ha⟩ := h
  refine ⟨_, _, ofIters_sim h, ?_⟩
  rintro _ m ⟨c, rfl, hc⟩ hm
  obtain ⟨t', h1, h2⟩ := ha hc hm
  refine ⟨(⟨d, t'⟩ : (d : Nat) × (it d).S), h1.mono ?_, t', rfl, h2⟩
  intro F e
  show (if h : d = d then ((it d).set F ((it d).get (it d).init).1 (h ▸ c)).map _ else _) = _
  rw [dif_pos rfl]
  show ((it d).set F ((it d).get (it d).init).1 c).map _ = _
  rw [e]; rfl

/-- What slicing in place does to the objects: each object of the graph is sliced, those that occur once are sliced once, and no
others are changed. -/
theorem setSlice_objects (n w : Nat) (d : WorkDs V) : ∀ (h h' : Nat → WorkObj V), d.setSlice n w h = .ok h' →
    (∀ id, id ∉ d.objects → h' id = h id) ∧
    (d.objects.Nodup → ∀ id, id ∈ d.objects → h' id = (h id).setSlice n w) := by
  induction d with
  | object id =>
    intro h h' e
    cases e
    refine ⟨fun j hj => Function.update_of_ne (by simpa [WorkDs.objects] using hj) _ _, fun _ j hj => ?_⟩
    have : j = id := by simpa [WorkDs.objects] using hj
    subst this
    exact Function.update_self _ _ _
  | user it => intro h h' e; cases e
  | map f p ih => exact ih
  | randomMap f p ih => exact ih
  | mapWithIndex f p ih => exact ih
  | filter f p ih => exact ih
  | batch b dr f p ih => exact ih
  | flatMap f p ih => exact ih
  | limit k p ih => exact ih
  | «repeat» k p ih => exact ih
  | zip strict tuple p q ihp ihq =>
    intro h h' e
    cases h1 : p.setSlice n w h with
    | error err => rw [WorkDs.setSlice, h1] at e; cases e
    | ok h1' =>
      rw [WorkDs.setSlice, h1] at e
      have e : q.setSlice n w h1' = .ok h' := e
      obtain ⟨p1, p2⟩ := ihp _ _ h1
      obtain ⟨q1, q2⟩ := ihq _ _ e
      refine ⟨?_, ?_⟩
      · intro id hid
        simp only [WorkDs.objects, List.mem_append, not_or] at hid
        rw [q1 id hid.2, p1 id hid.1]
      · intro hnd id hid
        simp only [WorkDs.objects, List.nodup_append] at hnd
        obtain ⟨n1, n2, n3⟩ := hnd
        simp only [WorkDs.objects, List.mem_append] at hid
        by_cases hq : id ∈ q.objects
        · rw [q2 n2 id hq, p1 id (fun hp => n3 id hp id hq rfl)]
        · have hp := hid.resolve_right hq
          rw [q1 id hq, p2 n1 id hp]

theorem yields_sliceable {heap : Nat → WorkObj V} {d : WorkDs V} {ys : List (Option V)} (h : Yields heap d ys) (n w : Nat) :
    ∀ h0, ∃ h', d.setSlice n w h0 = .ok h' := by
  induction h with
  | object hobj hr hall => exact fun h0 => ⟨_, rfl⟩
  | map f g hf _ ih => exact ih
  | randomMap f hl hf _ ih => exact ih
  | zip strict tuple hs _ _ ihp ihq =>
    intro h0
    obtain ⟨h1, e1⟩ := ihp h0
    obtain ⟨h2, e2⟩ := ihq h1
    refine ⟨h2, ?_⟩
    rw [WorkDs.setSlice, e1]
    exact e2

theorem everyNth_length_congr {n w : Nat} (hn : 0 < n) {xs : List α} {ys : List β} (h : xs.length = ys.length) :
    (everyNth n w xs).length = (everyNth n w ys).length := by
  have key : ∀ k, (everyNth n w xs).length ≤ k ↔ (everyNth n w ys).length ≤ k := by
    intro k
    rw [← List.getElem?_eq_none_iff, ← List.getElem?_eq_none_iff, everyNth_getElem? hn, everyNth_getElem? hn,
      List.getElem?_eq_none_iff, List.getElem?_eq_none_iff, h]
  have a := key (everyNth n w xs).length
  have b := key (everyNth n w ys).length
  omega

theorem everyNth_zipWith {n : Nat} (hn : 0 < n) (w : Nat) (f : α → β → γ) (xs : List α) (ys : List β) :
    everyNth n w (List.zipWith f xs ys) = List.zipWith f (everyNth n w xs) (everyNth n w ys) := by
  apply List.ext_getElem?
  intro k
  rw [everyNth_getElem? hn, List.getElem?_zipWith, List.getElem?_zipWith, everyNth_getElem? hn, everyNth_getElem? hn]

theorem everyNth_one (ys : List α) : everyNth 1 0 ys = ys := by
  apply List.ext_getElem?
  intro i
  rw [everyNth_getElem? (by omega)]
  simp

theorem map_onElement {f : α → Py (Option β)} {g : Option α → Option β} {xs : List (Option α)}
    (hf : ∀ x ∈ xs, onElement f x = .ok (g x)) :
    (xs.map Except.ok).map (mapOutcome f) = (xs.map g).map (Except.ok : _ → Py _) := by
  rw [List.map_map, List.map_map]
  apply List.map_congr_left
  intro x hx
  have := hf x hx
  cases x with
  | none => exact this
  | some a => exact this

/-- A zip of two streams. -/
theorem zip_two_resumes {p q : Iter (Option V)} {xs ys : List (Option V)} (strict : Bool) (tuple : List (Option V) → Option V)
    (hs : strict = true → xs.length = ys.length) (hp : Resumes p (xs.map Except.ok) true) (hq : Resumes q (ys.map Except.ok) true) :
    Resumes ((zipIter strict (n := 2) (fun i => if i = 0 then p else q)).view tuple)
      ((List.zipWith (fun x y => tuple [x, y]) xs ys).map Except.ok) true := by
  have h := zipIter_resumes (n := 2) (by omega) strict (ps := fun i => if i = 0 then p else q) (as := fun i => if i = 0 then xs else ys)
    (ended := true) (by
      intro i
      match i with
      | 0 => exact hp
      | 1 => exact hq)
    (by
      intro h1 _ i j
      have := hs h1
      match i, j with
      | 0, 0 => rfl
      | 0, 1 => exact this
      | 1, 0 => exact this.symm
      | 1, 1 => rfl)
  have hv := h.view tuple
  have he : ((zipStream (n := 2) (fun i => if i = 0 then xs else ys)).map (Except.ok : _ → Py _)).map (fun x => x.map tuple) =
      (List.zipWith (fun x y => tuple [x, y]) xs ys).map Except.ok := by
    have hm : minLen (n := 2) (fun i => if i = 0 then xs else ys) = min xs.length ys.length := by
      obtain ⟨h1, i, h2⟩ := minLen_spec (n := 2) (by omega) (fun i => if i = 0 then xs else ys)
      have a : _ ≤ xs.length := h1 0
      have b : _ ≤ ys.length := h1 1
      match i, h2 with
      | 0, h2 =>
        have h2 : xs.length = _ := h2
        omega
      | 1, h2 =>
        have h2 : ys.length = _ := h2
        omega
    unfold zipStream
    rw [hm]
    apply List.ext_getElem?
    intro k
    simp only [List.map_map, List.getElem?_map, List.getElem?_zipWith]
    by_cases hk : k < min xs.length ys.length
    · have h1 : k < xs.length := by omega
      have h2 : k < ys.length := by omega
      rw [List.getElem?_range hk, List.getElem?_eq_getElem h1, List.getElem?_eq_getElem h2]
      simp only [Option.map_some, Function.comp_apply]
      rw [zipRow_eq _ _ (by
        intro i
        match i with
        | 0 => exact h1
        | 1 => exact h2)]
      rfl
    · rw [List.getElem?_eq_none (by rw [List.length_range]; omega)]
      by_cases h1 : k < xs.length
      · rw [List.getElem?_eq_getElem h1, List.getElem?_eq_none (by omega : ys.length ≤ k)]; rfl
      · rw [List.getElem?_eq_none (by omega : xs.length ≤ k)]; rfl
  rw [he] at hv
  exact hv

/-- The iterator of a random access dataset. -/
theorem reads_resumes {ds : MapDs α} {vs : List (Option α)} (hr : Reads ds vs) (size threads : Nat) (allow : Bool) :
    Resumes (prefetchIter size threads allow none ds) ((vs.filter (fun v => allow || v.isSome)).map Except.ok) true := by
  have sim := prefetchIter_sim (allow := allow) size threads true [] (by simp) (by have := hr.1; omega) hr.2 (fun _ => ⟨hr.1, rfl⟩) (by simp)
  simp only [List.map_nil, List.append_nil] at sim
  exact ⟨_, _, sim⟩

theorem worker_reads {n w : Nat} (hn : 0 < n) (hw : w < n) {ds : MapDs α} {vs : List (Option α)} (hr : Reads ds vs) :
    Reads (workerDs n w ds) (everyNth n w vs) := workerDs_reads hn hw ds hr.1 hr.2

/-- The stream of one worker when its objects are cut once each. -/
theorem worker_yields {heap : Nat → WorkObj V} {d : WorkDs V} {ys : List (Option V)} (h : Yields heap d ys) {n w : Nat}
    (hn : 0 < n) (hw : w < n) (h' : Nat → WorkObj V)
    (hh : ∀ id, id ∈ d.objects → ∀ size threads allow ds, heap id = .mapDs size threads allow ds →
      (h' id).iter = prefetchIter size threads allow none (workerDs n w ds)) :
    Resumes (d.iter h' n w) ((everyNth n w ys).map Except.ok) true := by
  induction h with
  | @object id size threads allow ds vs hobj hr hall =>
    rw [WorkDs.iter, hh id (by simp [WorkDs.objects]) _ _ _ _ hobj]
    have := reads_resumes (worker_reads hn hw hr) size threads allow
    have he : (everyNth n w vs).filter (fun v => allow || v.isSome) = everyNth n w vs :=
      keepElems_all (hall.imp (fun h => h) (fun h v hv' => h v (everyNth_mem hv')))
    rw [he] at this
    exact this
  | map f g hf _ ih =>
    obtain ⟨At, Ck, sim⟩ := ih hh
    have := mapIter_sim (f := f) sim
    rw [map_onElement (fun x hx => hf x (everyNth_mem hx)), ← everyNth_map] at this
    exact ⟨_, _, this⟩
  | @randomMap p xs ys f hl hf _ ih =>
    obtain ⟨At, Ck, sim⟩ := ih hh
    have := randomMapIter_sim (f := f) (i := w) (c := n) sim
    have he := countedMap_all_ok (randomMapAt f w n) (everyNth n w xs) 0 (everyNth n w ys) (everyNth_length_congr hn hl.symm) (by
      intro i a b
      have ga := List.getElem?_eq_getElem a
      have gb := List.getElem?_eq_getElem b
      rw [everyNth_getElem? hn] at ga gb
      obtain ⟨la, ga⟩ := List.getElem?_eq_some_iff.1 ga
      obtain ⟨lb, gb⟩ := List.getElem?_eq_some_iff.1 gb
      rw [← ga, ← gb, ← hf (i * n + w) la lb, Nat.zero_add]
      have hc : w + i * n = i * n + w := Nat.add_comm _ _
      cases xs[i * n + w] with
      | none => rfl
      | some v => simp only [randomMapAt, onElement, hc])
    rw [he] at this
    exact ⟨_, _, this⟩
  | zip strict tuple hs _ _ ihp ihq =>
    rw [everyNth_zipWith hn]
    exact zip_two_resumes strict tuple (fun h1 => everyNth_length_congr hn (hs h1))
      (ihp (fun id hid => hh id (by simp [WorkDs.objects, hid]))) (ihq (fun id hid => hh id (by simp [WorkDs.objects, hid])))

/-! ### Elements -/

/-- An iterator that is always restored as if it were new. -/
def Iter.renew (p : Iter α) : Iter α := { p with set := fun F _ c => p.set F p.init c }

theorem ResumesFresh.renew {p : Iter α} {xs : List (Py α)} (h : ResumesFresh p xs true) : Resumes p.renew xs true := by
  obtain ⟨At, Ck, h⟩ := h
  exact ⟨At, Ck, { init := h.init, bound := h.bound, next_item := h.next_item, next_stop := h.next_stop, get := h.get,
                   set := fun _ hc hm => h.set_init hc hm
                   ck_bound := fun hc => by
                     obtain ⟨s', _, hs⟩ := h.set_init hc (Or.inr rfl)
                     exact h.bound hs }⟩

theorem mapIter_fresh {p : Iter (Option α)} {xs : List (Py (Option α))} (f : α → Py (Option β)) (h : ResumesFresh p xs true) :
    ResumesFresh (mapIter f p) (xs.map (mapOutcome f)) true := by
  obtain ⟨At, Ck, h⟩ := h.renew
  have h := mapIter_sim (f := f) h
  exact ⟨At, Ck, { init := h.init, bound := h.bound, next_item := h.next_item, next_stop := h.next_stop, get := h.get,
                   set := by intro _ _ _ _ _ _ _ hu; cases hu
                   set_init := fun hc hm => h.set h.init hc hm }⟩

theorem filterLoop_iter_renew (p : Iter α) (pred : α → Py Bool) (thr : Option Threshold) (F : Nat) : ∀ (n : Nat) (s : p.S × Checker),
    filterLoop p.renew pred thr F n s = filterLoop p pred thr F n s := by
  intro n
  induction n with
  | zero => intro s; rfl
  | succ n ih =>
    intro s
    simp only [filterLoop]
    show (p.next F s.1).bind _ = (p.next F s.1).bind _
    congr 1
    funext x
    obtain ⟨ps, q⟩ := x
    cases q with
    | stop => rfl
    | fail e => rfl
    | item a =>
      dsimp only
      cases pred a with
      | error e => rfl
      | ok b =>
        dsimp only
        rcases s.2.check thr b with ⟨c, _ | e⟩
        · cases b with
          | true => rfl
          | false => exact ih (ps, c)
        · rfl

theorem filterIter_fresh {p : Iter α} {xs : List (Py α)} (pred : α → Py Bool) (h : ResumesFresh p xs true) :
    ResumesFresh (filterIter pred none p) (xs.filterMap (filterOutcome pred)) true := by
  obtain ⟨At, Ck, h⟩ := filterIter_resumes (pred := pred) h.renew
  exact ⟨At, Ck, { init := h.init, bound := h.bound
                   next_item := fun hs hx => by
                     obtain ⟨s', g1, g2⟩ := h.next_item hs hx
                     exact ⟨s', g1.mono (fun F e => (filterLoop_iter_renew p pred none F F _).symm.trans e), g2⟩
                   next_stop := fun hs he => by
                     obtain ⟨s', g1, g2⟩ := h.next_stop hs he
                     exact ⟨s', g1.mono (fun F e => (filterLoop_iter_renew p pred none F F _).symm.trans e), g2⟩
                   get := h.get
                   set := by intro _ _ _ _ _ _ _ hu; cases hu
                   set_init := fun hc hm => h.set h.init hc hm }⟩

theorem filter_outcomes {pred : α → Py Bool} {keep : α → Bool} : ∀ {xs : List α}, (∀ x ∈ xs, pred x = .ok (keep x)) →
    (xs.map Except.ok).filterMap (filterOutcome pred) = (xs.filter keep).map (Except.ok : _ → Py _)
  | [], _ => rfl
  | x :: xs, h => by
    have h1 := h x (by simp)
    have ih := filter_outcomes (xs := xs) (fun y hy => h y (by simp [hy]))
    rw [List.map_cons, List.filterMap_cons]
    simp only [filterOutcome, h1]
    cases hk : keep x with
    | true => rw [List.filter_cons_of_pos hk, List.map_cons, ← ih]
    | false => rw [List.filter_cons_of_neg (by simp [hk]), ← ih]

theorem flatMap_replicate_swap {zs : Nat → List α} (k : Nat) : ∀ n,
    ((List.range n).flatMap (fun w => (List.replicate k (zs w)).flatten)).Perm (List.replicate k ((List.range n).flatMap zs)).flatten := by
  intro n
  apply Multiset.coe_eq_coe.1
  have key : ∀ (l : List α), (((List.replicate k l).flatten : List α) : Multiset α) = k • (l : Multiset α) := by
    intro l
    induction k with
    | zero => simp
    | succ k ih => rw [List.replicate_succ, List.flatten_cons, ← Multiset.coe_add, ih, succ_nsmul, add_comm]
  rw [key]
  induction n with
  | zero => simp
  | succ n ih =>
    rw [List.range_succ, List.flatMap_append, List.flatMap_append, ← Multiset.coe_add, ← Multiset.coe_add, ih, nsmul_add]
    congr 1
    simp only [List.flatMap_cons, List.flatMap_nil, List.append_nil]
    exact key _

/-- An iterator that is always restored as if it were in state `t`. -/
def Iter.restoredAt (p : Iter α) (t : p.S) : Iter α := { p with set := fun F _ c => p.set F t c }

theorem restoredAt_sim {p : Iter α} {t : p.S} {xs : List (Py α)} {At : p.S → Nat → Prop} {Ck : p.C → Nat → Prop}
    (h : SimWhen (fun _ => false) p xs true At Ck)
    (hs : ∀ {c m}, Ck c m → m < xs.length ∨ true = true → ∃ s', Ev (fun F => p.set F t c = some (s', none)) ∧ At s' m) :
    Sim (p.restoredAt t) xs true At Ck :=
  { init := h.init, bound := h.bound, next_item := h.next_item, next_stop := h.next_stop, get := h.get
    set := fun _ hc hm => hs hc hm
    ck_bound := fun hc => by
      obtain ⟨s', _, hs⟩ := hs hc (Or.inr rfl)
      exact h.bound hs }

theorem mapIter_asked {p : Iter (Option α)} {xs : List (Py (Option α))} (f : α → Py (Option β)) (h : ResumesAsked p xs true) :
    ResumesAsked (mapIter f p) (xs.map (mapOutcome f)) true := by
  obtain ⟨At, Ck, h, ha⟩ := h
  have h1 := mapIter_sim (f := f) (restoredAt_sim h h.set_init)
  have h2 := mapIter_sim (f := f) (restoredAt_sim h ha)
  exact ⟨At, Ck, { init := h1.init, bound := h1.bound, next_item := h1.next_item, next_stop := h1.next_stop, get := h1.get,
                   set := by intro _ _ _ _ _ _ _ hu; cases hu
                   set_init := fun hc hm => h1.set h1.init hc hm }, fun hc hm => h2.set h2.init hc hm⟩

theorem filterLoop_restoredAt (p : Iter α) (t : p.S) (pred : α → Py Bool) (thr : Option Threshold) (F : Nat) : ∀ (n : Nat) (s : p.S × Checker),
    filterLoop (p.restoredAt t) pred thr F n s = filterLoop p pred thr F n s := by
  intro n
  induction n with
  | zero => intro s; rfl
  | succ n ih =>
    intro s
    simp only [filterLoop]
    show (p.next F s.1).bind _ = (p.next F s.1).bind _
    congr 1
    funext x
    obtain ⟨ps, q⟩ := x
    cases q with
    | stop => rfl
    | fail e => rfl
    | item a =>
      dsimp only
      cases pred a with
      | error e => rfl
      | ok b =>
        dsimp only
        rcases s.2.check thr b with ⟨c, _ | e⟩
        · cases b with
          | true => rfl
          | false => exact ih (ps, c)
        · rfl

theorem filterIter_asked {p : Iter α} {xs : List (Py α)} (pred : α → Py Bool) (h : ResumesAsked p xs true) :
    ResumesAsked (filterIter pred none p) (xs.filterMap (filterOutcome pred)) true := by
  obtain ⟨At, Ck, h, ha⟩ := h
  have h1 := filterIter_sim (pred := pred) (restoredAt_sim h h.set_init)
  have h2 := filterIter_sim (pred := pred) (restoredAt_sim h ha)
  exact ⟨_, _, { init := h1.init, bound := h1.bound
                 next_item := fun hs hx => by
                   obtain ⟨s', g1, g2⟩ := h1.next_item hs hx
                   exact ⟨s', g1.mono (fun F e => (filterLoop_restoredAt p p.init pred none F F _).symm.trans e), g2⟩
                 next_stop := fun hs he => by
                   obtain ⟨s', g1, g2⟩ := h1.next_stop hs he
                   exact ⟨s', g1.mono (fun F e => (filterLoop_restoredAt p p.init pred none F F _).symm.trans e), g2⟩
                 get := h1.get
                 set := by intro _ _ _ _ _ _ _ hu; cases hu
                 set_init := fun hc hm => h1.set h1.init hc hm }, fun hc hm => h2.set (h2.get h2.init).1 hc hm⟩

theorem flatMapLoop_restoredAt (p : Iter α) (t : p.S) (f : α → Py (List β)) (F : Nat) : ∀ (n : Nat) (s : FlatMapState p.S p.C β),
    flatMapLoop (p.restoredAt t) f F n s = flatMapLoop p f F n s := by
  intro n
  induction n with
  | zero => intro s; rfl
  | succ n ih =>
    intro s
    simp only [flatMapLoop]
    cases s.buf[s.idx]? with
    | some b => rfl
    | none =>
      dsimp only
      show (p.next F (p.get s.ps).1).bind _ = (p.next F (p.get s.ps).1).bind _
      congr 1
      funext x
      obtain ⟨ps, q⟩ := x
      cases q with
      | stop => rfl
      | fail e => rfl
      | item a =>
        dsimp only
        cases f a with
        | error e => rfl
        | ok l => exact ih _

/-- `flat_map` asks its input for its state when it is made. -/
theorem flatMapIter_asked {p : Iter α} {as : List α} {g : α → List β} {f : α → Py (List β)}
    (hp : ResumesAsked p (as.map Except.ok) true) (hf : ∀ a ∈ as, f a = .ok (g a)) :
    ResumesAsked (flatMapIter f p) ((as.flatMap g).map Except.ok) true := by
  obtain ⟨At, Ck, h, ha⟩ := hp
  obtain ⟨At, Ck, h, _⟩ := flatMapIter_sim ⟨_, _, restoredAt_sim h ha⟩ hf
  have hset : ∀ F c, (flatMapIter f p).set F (flatMapIter f p).init c =
      (flatMapIter f (p.restoredAt (p.get p.init).1)).set F (flatMapIter f (p.restoredAt (p.get p.init).1)).init c := by
    intro F c
    simp only [flatMapIter]
    show (p.set F (p.get p.init).1 c.1).bind _ = (p.set F (p.get p.init).1 c.1).bind _
    congr 1
    funext x
    obtain ⟨ps, _ | e⟩ := x
    · show (p.next F ps).bind _ = (p.next F ps).bind _
      congr 1
    · rfl
  have hi : ∀ {c m}, Ck c m → m < ((as.flatMap g).map (Except.ok : β → Py β)).length ∨ true = true →
      ∃ s', Ev (fun F => (flatMapIter f p).set F (flatMapIter f p).init c = some (s', none)) ∧ At s' m := fun hc hm => by
    obtain ⟨s', g1, g2⟩ := h.set_init hc hm
    exact ⟨s', g1.mono (fun F e => (hset F _).trans e), g2⟩
  exact ⟨At, Ck, { init := h.init, bound := h.bound
                   next_item := fun hs hx => by
                     obtain ⟨s', g1, g2⟩ := h.next_item hs hx
                     exact ⟨s', g1.mono (fun F e => (flatMapLoop_restoredAt p _ f F F _).symm.trans e), g2⟩
                   next_stop := fun hs he => by
                     obtain ⟨s', g1, g2⟩ := h.next_stop hs he
                     exact ⟨s', g1.mono (fun F e => (flatMapLoop_restoredAt p _ f F F _).symm.trans e), g2⟩
                   get := h.get
                   set := by intro _ _ _ _ _ _ _ hu; cases hu
                   set_init := hi }, hi⟩

theorem listStride_eq (n w : Nat) (l : List α) : listStride n w l = everyNth n w l := by
  unfold listStride everyNth
  congr 1
  funext k
  rw [Nat.add_comm]

theorem elements_sliceable {n m : Nat} {heap : Nat → WorkObj V} {d : WorkDs V} {ys : List (Option V)} {into : RestoreInto}
    (h : Elements m heap d ys into) (w : Nat) : ∃ h', d.setSlice n w heap = .ok h' := by
  induction h with
  | object => exact ⟨_, rfl⟩
  | interleave => exact ⟨_, rfl⟩
  | interleaveAsked => exact ⟨_, rfl⟩
  | map f g hf _ ih => exact ih
  | filter f g hf _ ih => exact ih
  | «repeat» k hk _ ih => exact ih
  | flatMap f g hf _ _ ih => exact ih

/-- A list of outcomes without errors. -/
theorem all_ok_list : ∀ (l : List (Py α)), (∀ r ∈ l, ∃ b, r = Except.ok b) → ∃ zs : List α, l = zs.map Except.ok
  | [], _ => ⟨[], rfl⟩
  | r :: l, h => by
    obtain ⟨b, rfl⟩ := h r (by simp)
    obtain ⟨zs, rfl⟩ := all_ok_list l (fun r hr => h r (by simp [hr]))
    exact ⟨b :: zs, rfl⟩

/-- What an interleaving yields, disregarding the order. -/
theorem tagged_bag {n : Nat} {t : List (Nat × Py α)} {xs : Nat → List α} (htag : ∀ d r, (d, r) ∈ t → d < n)
    (hel : ∀ d, d < n → (t.filter (fun q => q.1 = d)).map (·.2) = (xs d).map Except.ok) :
    ∃ zs : List α, zs.Perm ((List.range n).flatMap xs) ∧ t.map (·.2) = zs.map Except.ok := by
  have hperm := (tagged_perm n t (fun q hq => htag q.1 q.2 hq)).map (·.2)
  rw [List.map_flatMap] at hperm
  have h3 : (List.range n).flatMap (fun d => (t.filter (fun q => q.1 = d)).map (·.2)) =
      ((List.range n).flatMap xs).map Except.ok := by
    rw [List.map_flatMap, List.flatMap_def, List.flatMap_def]
    congr 1
    apply List.map_congr_left
    intro d hd
    exact hel d (List.mem_range.1 hd)
  rw [h3] at hperm
  obtain ⟨zs, hzs⟩ := all_ok_list (t.map (·.2)) (by
    intro r hr
    obtain ⟨b, _, hb⟩ := List.mem_map.1 ((hperm.mem_iff).1 hr)
    exact ⟨b, hb.symm⟩)
  rw [hzs] at hperm
  exact ⟨zs, (List.map_perm_map_iff (f := (Except.ok : α → Py α)) (fun a b h => by cases h; rfl)).1 hperm, hzs⟩

theorem interleave_bag {f : IterFam α} {n cycle : Nat} (keep : Bool) {xs : Nat → List α} (hn : 0 < n) (hc : 0 < cycle)
    (h : ∀ d, d < n → ResumesFresh (f.iter d) ((xs d).map Except.ok) true) :
    ∃ zs : List α, zs.Perm ((List.range n).flatMap xs) ∧ ResumesFresh (interleaveIter f n cycle keep) (zs.map Except.ok) true := by
  obtain ⟨t, hex, _, htag, hel, _⟩ := interleave_elements keep hn hc h
  obtain ⟨zs, h1, h2⟩ := tagged_bag htag hel
  exact ⟨zs, h1, h2 ▸ hex⟩

theorem interleave_bag_asked {f : IterFam α} {n cycle : Nat} (keep : Bool) {xs : Nat → List α} (hn : 0 < n) (hc : 0 < cycle)
    (h : ∀ d, d < n → ResumesAsked (f.iter d) ((xs d).map Except.ok) true) :
    ∃ zs : List α, zs.Perm ((List.range n).flatMap xs) ∧ ResumesAsked (interleaveIter f n cycle keep) (zs.map Except.ok) true := by
  obtain ⟨t, hex, htag, hel⟩ := interleave_asked keep hn hc h
  obtain ⟨zs, h1, h2⟩ := tagged_bag htag hel
  exact ⟨zs, h1, h2 ▸ hex⟩

/-- The workers of an interleaving; `P` says how the iterators are restored. -/
theorem interleave_workers {P : Iter (Option V) → List (Py (Option V)) → Prop} {cycle : Nat}
    (hbag : ∀ (f : IterFam (Option V)) (n : Nat) (xs : Nat → List (Option V)), 0 < n → (∀ d, d < n → P (f.iter d) ((xs d).map Except.ok)) →
      ∃ zs : List (Option V), zs.Perm ((List.range n).flatMap xs) ∧ P (interleaveIter f n cycle false) (zs.map Except.ok))
    (hof : ∀ {it : Nat → Iter (Option V)} {d : Nat} {xs}, P (it d) xs → P ((IterFam.ofIters it).iter d) xs)
    {n : Nat} (hn : 0 < n) {heap : Nat → WorkObj V} {id : Nat} {its : List (Iter (Option V))} {xs : Nat → List (Option V)}
    (hobj : heap id = .interleave cycle its) (hle : n ≤ its.length)
    (hits : ∀ i (hi : i < its.length), P its[i] ((xs i).map Except.ok)) :
    ∃ zs : Nat → List (Option V), (∀ w, w < n → P (workerIter n w heap (.object id)) ((zs w).map Except.ok)) ∧
      ((List.range n).flatMap zs).Perm ((List.range its.length).flatMap xs) := by
  have hworker : ∀ w, ∃ zs : List (Option V), w < n →
      zs.Perm ((everyNth n w (List.range its.length)).flatMap xs) ∧
      P (workerIter n w heap (.object id)) (zs.map Except.ok) := by
    intro w
    by_cases hw : w < n
    · have he : workerIter n w heap (.object id) =
          interleaveIter (IterFam.ofIters (fun d => (everyNth n w its).getD d (failIter .indexError))) (everyNth n w its).length cycle false := by
        unfold workerIter
        by_cases hn1 : n = 1
        · have hw0 : w = 0 := by omega
          rw [if_pos hn1]
          subst hn1
          subst hw0
          simp only [WorkDs.iter, hobj, WorkObj.iter, everyNth_one]
        · rw [if_neg hn1]
          simp only [WorkDs.setSlice, WorkDs.iter, Function.update_self, hobj, WorkObj.setSlice, WorkObj.iter, listStride_eq]
      have hlen : (everyNth n w its).length = (everyNth n w (List.range its.length)).length :=
        everyNth_length_congr hn (by simp)
      have hget : ∀ i, i < (everyNth n w its).length → i * n + w < its.length := by
        intro i hi
        have := everyNth_getElem? hn w its i
        rw [List.getElem?_eq_getElem hi] at this
        exact (List.getElem?_eq_some_iff.1 this.symm).1
      have h0 : 0 < (everyNth n w its).length := by
        apply Nat.pos_of_ne_zero
        intro hc0
        have h1 : (everyNth n w its)[0]? = none := List.getElem?_eq_none (by omega)
        rw [everyNth_getElem? hn, List.getElem?_eq_none_iff] at h1
        omega
      obtain ⟨zs, g1, g2⟩ := hbag (IterFam.ofIters (fun d => (everyNth n w its).getD d (failIter .indexError)))
        (everyNth n w its).length (fun i => xs (i * n + w)) h0 (by
          intro i hi
          apply hof
          have e1 : (everyNth n w its).getD i (failIter .indexError) = its[i * n + w]'(hget i hi) := by
            have := everyNth_getElem? hn w its i
            rw [List.getD_eq_getElem?_getD, this, List.getElem?_eq_getElem (hget i hi)]
            rfl
          simp only [e1]
          exact hits _ _)
      refine ⟨zs, fun _ => ⟨?_, ?_⟩⟩
      · refine g1.trans (List.Perm.of_eq ?_)
        have e2 : everyNth n w (List.range its.length) = (List.range (everyNth n w its).length).map (fun i => i * n + w) := by
          apply List.ext_getElem?
          intro i
          rw [everyNth_getElem? hn, List.getElem?_map]
          by_cases hi : i < (everyNth n w its).length
          · rw [List.getElem?_range (hget i hi), List.getElem?_range hi]; rfl
          · rw [List.getElem?_eq_none (by rw [List.length_range]; omega : (List.range (everyNth n w its).length).length ≤ i)]
            rw [← everyNth_getElem? hn, List.getElem?_eq_none (by rw [← hlen]; omega)]
            rfl
        rw [e2, List.flatMap_map]
      · rw [he]; exact g2
    · exact ⟨[], fun hw' => absurd hw' hw⟩
  obtain ⟨zs, hz⟩ := Classical.axiomOfChoice hworker
  refine ⟨zs, fun w hw => (hz w hw).2, ?_⟩
  have hp : ∀ m, m ≤ n → ((List.range m).flatMap zs).Perm ((List.range m).flatMap (fun w => (everyNth n w (List.range its.length)).flatMap xs)) := by
    intro m
    induction m with
    | zero => intro _; exact List.Perm.refl _
    | succ m ih =>
      intro hm
      rw [List.range_succ, List.flatMap_append, List.flatMap_append]
      refine (ih (by omega)).append ?_
      simp only [List.flatMap_cons, List.flatMap_nil, List.append_nil]
      exact (hz m (by omega)).1
  refine (hp n (Nat.le_refl n)).trans ?_
  rw [← List.flatMap_assoc]
  exact (everyNth_perm hn (List.range its.length)).flatMap_right xs

/-- The streams of the workers; together they have the elements of the pipeline. -/
theorem worker_elements {n : Nat} (hn : 0 < n) {heap : Nat → WorkObj V} {d : WorkDs V} {ys : List (Option V)} {into : RestoreInto}
    (h : Elements n heap d ys into) :
    ∃ zs : Nat → List (Option V), (∀ w, w < n → ResumesFresh (workerIter n w heap d) ((zs w).map Except.ok) true ∧
        (into ≠ .fresh → ResumesAsked (workerIter n w heap d) ((zs w).map Except.ok) true) ∧
        (into = .used → Resumes (workerIter n w heap d) ((zs w).map Except.ok) true)) ∧
      ((List.range n).flatMap zs).Perm ys := by
  have lift : ∀ (F : Nat → Iter (Option V) → Iter (Option V)) (d e : WorkDs V),
      (∀ h w, e.iter h n w = F w (d.iter h n w)) → (∀ w, e.setSlice n w heap = d.setSlice n w heap) →
      (∀ w, ∃ h', d.setSlice n w heap = .ok h') → ∀ w, workerIter n w heap e = F w (workerIter n w heap d) := by
    intro F d e h1 h2 h3 w
    unfold workerIter
    by_cases hn1 : n = 1
    · rw [if_pos hn1, if_pos hn1, h1]
    · rw [if_neg hn1, if_neg hn1, h2]
      obtain ⟨h', h3⟩ := h3 w
      rw [h3]
      exact h1 _ _
  induction h with
  | @object id size threads allow ds vs hobj hr =>
    refine ⟨fun w => (everyNth n w vs).filter (fun v => allow || v.isSome), ?_, ?_⟩
    · intro w hw
      have he : workerIter n w heap (.object id) = prefetchIter size threads allow none (workerDs n w ds) := by
        unfold workerIter
        by_cases hn1 : n = 1
        · rw [if_pos hn1]
          simp only [WorkDs.iter, hobj, WorkObj.iter]
          rw [show workerDs n w ds = ds by unfold workerDs; rw [if_pos hn1]]
        · rw [if_neg hn1]
          simp only [WorkDs.setSlice, WorkDs.iter, Function.update_self, hobj, WorkObj.setSlice, WorkObj.iter]
      rw [he]
      have := reads_resumes (worker_reads hn hw hr) size threads allow
      exact ⟨this.fresh, fun _ => this.asked, fun _ => this⟩
    · rw [← List.filter_flatMap]
      exact (everyNth_perm hn vs).filter _
  | @interleave id cycle its xs hobj hc hle hpos hits =>
    obtain ⟨zs, h1, h2⟩ := interleave_workers (P := fun it xs => ResumesFresh it xs true) (cycle := cycle)
      (fun f n xs hn h => interleave_bag false hn hc h) (fun h => ofIters_fresh h) hn hobj hle hits
    exact ⟨zs, fun w hw => ⟨h1 w hw, fun h => absurd rfl h, fun h => (by cases h)⟩, h2⟩
  | @interleaveAsked id cycle its xs hobj hc hle hpos hits =>
    obtain ⟨zs, h1, h2⟩ := interleave_workers (P := fun it xs => ResumesAsked it xs true) (cycle := cycle)
      (fun f n xs hn h => interleave_bag_asked false hn hc h) (fun h => ofIters_asked h) hn hobj hle hits
    exact ⟨zs, fun w hw => ⟨(h1 w hw).fresh, fun _ => h1 w hw, fun h => (by cases h)⟩, h2⟩
  | @map p xs into f g hf hp ih =>
    obtain ⟨zs, h1, h2⟩ := ih
    have hl := lift (fun _ => mapIter f) p (.map f p) (fun _ _ => rfl) (fun _ => rfl) (fun w => elements_sliceable hp w)
    have hmem : ∀ w, w < n → ∀ x ∈ zs w, x ∈ xs := fun w hw x hx =>
      (h2.mem_iff).1 (List.mem_flatMap.2 ⟨w, List.mem_range.2 hw, hx⟩)
    refine ⟨fun w => (zs w).map g, ?_, ?_⟩
    · intro w hw
      rw [hl w, ← map_onElement (fun x hx => hf x (hmem w hw x hx))]
      refine ⟨mapIter_fresh f (h1 w hw).1, fun ha => mapIter_asked f ((h1 w hw).2.1 ha), fun ha => ?_⟩
      obtain ⟨At, Ck, sim⟩ := (h1 w hw).2.2 ha
      exact ⟨_, _, mapIter_sim sim⟩
    · rw [← List.map_flatMap]
      exact h2.map g
  | @filter p xs into pred keep hf hp ih =>
    obtain ⟨zs, h1, h2⟩ := ih
    have hl := lift (fun _ => filterIter pred none) p (.filter pred p) (fun _ _ => rfl) (fun _ => rfl) (fun w => elements_sliceable hp w)
    have hmem : ∀ w, w < n → ∀ x ∈ zs w, x ∈ xs := fun w hw x hx =>
      (h2.mem_iff).1 (List.mem_flatMap.2 ⟨w, List.mem_range.2 hw, hx⟩)
    refine ⟨fun w => (zs w).filter keep, ?_, ?_⟩
    · intro w hw
      rw [hl w, ← filter_outcomes (fun x hx => hf x (hmem w hw x hx))]
      exact ⟨filterIter_fresh pred (h1 w hw).1, fun ha => filterIter_asked pred ((h1 w hw).2.1 ha), fun ha => filterIter_resumes ((h1 w hw).2.2 ha)⟩
    · rw [← List.filter_flatMap]
      exact h2.filter keep
  | @«repeat» p xs k hk hp ih =>
    obtain ⟨zs, h1, h2⟩ := ih
    have hl := lift (fun _ => repeatIter (some k)) p (.repeat k p) (fun _ _ => rfl) (fun _ => rfl) (fun w => elements_sliceable hp w)
    refine ⟨fun w => (List.replicate k (zs w)).flatten, ?_, ?_⟩
    · intro w hw
      rw [hl w]
      have := repeatIter_resumes ((h1 w hw).2.2 rfl) (some k) k hk true (Or.inl ⟨rfl, rfl⟩)
      rw [List.map_flatten, List.map_replicate]
      exact ⟨this.fresh, fun _ => this.asked, fun _ => this⟩
    · refine (flatMap_replicate_swap k n).trans ?_
      clear h1 hl hk
      induction k with
      | zero => exact List.Perm.refl _
      | succ k ih =>
        rw [List.replicate_succ, List.replicate_succ, List.flatten_cons, List.flatten_cons]
        exact h2.append ih
  | @flatMap p xs into f g hf hi hp ih =>
    obtain ⟨zs, h1, h2⟩ := ih
    have hl := lift (fun _ => flatMapIter f) p (.flatMap f p) (fun _ _ => rfl) (fun _ => rfl) (fun w => elements_sliceable hp w)
    have hmem : ∀ w, w < n → ∀ x ∈ zs w, x ∈ xs := fun w hw x hx =>
      (h2.mem_iff).1 (List.mem_flatMap.2 ⟨w, List.mem_range.2 hw, hx⟩)
    refine ⟨fun w => (zs w).flatMap g, ?_, ?_⟩
    · intro w hw
      rw [hl w]
      have := flatMapIter_asked ((h1 w hw).2.1 hi) (fun x hx => hf x (hmem w hw x hx))
      exact ⟨this.fresh, fun _ => this, fun h => by cases h⟩
    · rw [← List.flatMap_assoc]
      exact h2.flatMap_right g

end Grain
