import Verif.Elastic.Accept
import Verif.Stack.Lemmas
import Mathlib.Tactic.Ring
/-
Lemmas about the graph searches of `ElasticIterator`, and a schedule in which a thread prefetch has read ahead.
-/
namespace Grain

/-- `m` is `g` or one of its parents, their parents, … -/
inductive DsGraph.Contains : DsGraph → DsGraph → Prop
  | self (g) : Contains g g
  | parent {g p m} : p ∈ g.parents → Contains p m → Contains g m

/-- Transformations with one parent, the last one applied first, over a dataset. -/
def DsGraph.chain (layers : List DsClass) (base : DsGraph) : DsGraph := layers.foldr (fun c g => .node c [g]) base

theorem checkLoop_iff (bad : DsClass → Bool) (stack : List DsGraph) :
    checkLoop bad stack = true ↔ ∃ g ∈ stack, ∃ m, g.Contains m ∧ bad m.cls = true := by
  induction stack using checkLoop.induct bad with
  | case1 => simp [checkLoop]
  | case2 c ps rest h =>
    rw [checkLoop, if_pos h]
    exact ⟨fun _ => ⟨_, List.mem_cons_self, _, .self _, h⟩, fun _ => rfl⟩
  | case3 c ps rest h ih =>
    rw [List.unattach_reverse, List.unattach_attach] at ih
    rw [checkLoop, if_neg h, ih]
    constructor
    · rintro ⟨g, hg, m, h1, h2⟩
      rcases List.mem_append.1 hg with hg | hg
      · exact ⟨_, List.mem_cons_self, m, .parent (List.mem_reverse.1 hg) h1, h2⟩
      · exact ⟨g, List.mem_cons_of_mem _ hg, m, h1, h2⟩
    · rintro ⟨g, hg, m, h1, h2⟩
      rcases List.mem_cons.1 hg with rfl | hg
      · cases h1 with
        | self => exact absurd h2 h
        | parent hp h1 => exact ⟨_, List.mem_append_left _ (List.mem_reverse.2 hp), m, h1, h2⟩
      · exact ⟨g, List.mem_append_right _ hg, m, h1, h2⟩

theorem chain_contains {layers : List DsClass} {base m : DsGraph} :
    (DsGraph.chain layers base).Contains m → m.cls ∈ layers ∨ base.Contains m := by
  induction layers with
  | nil => exact Or.inr
  | cons c layers ih =>
    intro h
    cases h with
    | self => exact Or.inl List.mem_cons_self
    | parent hp h =>
      have := List.mem_singleton.1 hp
      subst this
      rcases ih h with h | h
      · exact Or.inl (List.mem_cons_of_mem _ h)
      · exact Or.inr h

theorem contains_chain {layers : List DsClass} {base : DsGraph} {c : DsClass} (h : c ∈ layers) :
    ∃ m, (DsGraph.chain layers base).Contains m ∧ m.cls = c := by
  induction layers with
  | nil => cases h
  | cons d layers ih =>
    rcases List.mem_cons.1 h with rfl | h
    · exact ⟨_, .self _, rfl⟩
    · obtain ⟨m, h1, h2⟩ := ih h
      exact ⟨m, .parent (List.mem_singleton.2 rfl) h1, h2⟩

theorem chain_slice {layers : List DsClass} {base base' : DsGraph} {host hosts : Nat}
    (hl : ∀ c ∈ layers, c = .threadPrefetch ∨ c = .processPrefetch ∨ c = .iter) (hb : base.slice host hosts = .ok base') :
    (DsGraph.chain layers base).slice host hosts = .ok (DsGraph.chain layers base') := by
  induction layers with
  | nil => exact hb
  | cons c layers ih =>
    have := ih fun c hc => hl c (List.mem_cons_of_mem _ hc)
    have hs : DsGraph.slices host hosts [DsGraph.chain layers base] = .ok [DsGraph.chain layers base'] := by
      rw [DsGraph.slices, this]
      simp [DsGraph.slices]
    show DsGraph.slice host hosts (.node c [DsGraph.chain layers base]) = _
    rcases hl c List.mem_cons_self with rfl | rfl | rfl <;>
      (rw [DsGraph.slice, hs] <;> simp [DsGraph.chain])

theorem chain_findDs {layers : List DsClass} {base : DsGraph}
    (hl : ∀ c ∈ layers, c = .threadPrefetch ∨ c = .processPrefetch ∨ c = .iter) (hb : base.findDs = true)
    (hm : base.cls.isMap = false) :
    (DsGraph.chain layers base).findDs = true ∧ (DsGraph.chain layers base).cls.isMap = false := by
  induction layers with
  | nil => exact ⟨hb, hm⟩
  | cons c layers ih =>
    obtain ⟨h1, h2⟩ := ih fun c hc => hl c (List.mem_cons_of_mem _ hc)
    show DsGraph.findDs (.node c [DsGraph.chain layers base]) = true ∧ DsClass.isMap c = false
    refine ⟨?_, ?_⟩
    · rw [DsGraph.findDs, DsGraph.findDss, h1, h2]
      simp
    · rcases hl c List.mem_cons_self with rfl | rfl | rfl <;> rfl

theorem chain_findIt {layers : List DsClass} {base : DsGraph}
    (hl : ∀ c ∈ layers, c = .threadPrefetch ∨ c = .processPrefetch ∨ c = .iter) :
    (DsGraph.chain layers base).findIt = true ↔ (∀ c ∈ layers, c ≠ .processPrefetch) ∧ base.findIt = true := by
  induction layers with
  | nil => simp [DsGraph.chain]
  | cons c layers ih =>
    have := ih fun c hc => hl c (List.mem_cons_of_mem _ hc)
    show DsGraph.findIt (.node c [DsGraph.chain layers base]) = true ↔ _
    rcases hl c List.mem_cons_self with rfl | rfl | rfl
    · rw [DsGraph.findIt, DsGraph.findIts, DsGraph.findIts, Bool.or_false, this] <;> simp
    · rw [DsGraph.findIt]
      simp
    · rw [DsGraph.findIt, DsGraph.findIts, DsGraph.findIts, Bool.or_false, this] <;> simp

/-! ### A prefetch thread that has run as far as it can -/

section
variable {p : Iter α} {x : Nat → Option α} {At : p.S → Nat → Prop} {Ck : p.C → Nat → Prop}

theorem UserRun.trans {c : ConcIter α} {s t u : UserSys c} (h1 : UserRun c s t) (h2 : UserRun c t u) : UserRun c s u := by
  induction h2 with
  | refl => exact h1
  | tail _ h ih => exact .tail ih h

/-- A state of a prefetch over a source. -/
abbrev prefSt (p : Iter α) (cs : p.S × Option (Option p.C)) (state : p.C) (buf : List (Option (α × p.C)))
    (thr : Option (PrefPc α p.C)) (pc : UserPc α p.C) : PrefState (ofIter p) :=
  { cs := cs, state := state, buf := buf, thr := thr, flag := false, pc := pc }

/-- A state of its user, who saves nothing. -/
abbrev prefSys (p : Iter α) (size : Nat) (st : PrefState (ofIter p)) (mode : CMode) (prog : List Op)
    (outs : List (Option α)) : UserSys (prefetchOver size (ofIter p)) :=
  { st := st, mode := mode, prog := prog, saved := [], outs := outs }

/-- The thread reads one element: the source is one further. -/
theorem thread_reads (h : SimStream p (fun n => (x n).map .ok) At Ck) {size : Nat} {a : α} {n : Nat} (hx : x n = some a)
    {ps : p.S} (hp : At ps n) (state : p.C) (buf : List (Option (α × p.C))) (pc : UserPc α p.C) (mode : CMode)
    (prog : List Op) (outs : List (Option α)) :
    ∃ ps' ck, At ps' (n + 1) ∧ UserRun (prefetchOver size (ofIter p))
      (prefSys p size (prefSt p (ps, none) state buf (some .check) pc) mode prog outs)
      (prefSys p size (prefSt p (ps', none) state buf (some (.put (some (a, ck)))) pc) mode prog outs) := by
  obtain ⟨ps1, h1, h2⟩ := h.next hp
  simp only [streamRes, streamPos, hx, Option.map_some, toRes] at h1 h2
  refine ⟨(p.get ps1).1, (p.get ps1).2, (h.get h2).1, ?_⟩
  have s1 : UserStep (prefetchOver size (ofIter p)) (prefSys p size (prefSt p (ps, none) state buf (some .check) pc) mode prog outs)
      (prefSys p size (prefSt p (ps, none) state buf (some .call) pc) mode prog outs) :=
    .thread _ _ (PrefStep.check (size := size) (c := ofIter p) (prefSt p (ps, none) state buf (some .check) pc) rfl)
  have s2 : UserStep (prefetchOver size (ofIter p)) (prefSys p size (prefSt p (ps, none) state buf (some .call) pc) mode prog outs)
      (prefSys p size (prefSt p (ps, some none) state buf (some .reading) pc) mode prog outs) :=
    .thread _ _ (PrefStep.call (size := size) (c := ofIter p) (prefSt p (ps, none) state buf (some .call) pc) (ps, some none)
      rfl ⟨rfl, rfl⟩)
  have s3 : UserStep (prefetchOver size (ofIter p))
      (prefSys p size (prefSt p (ps, some none) state buf (some .reading) pc) mode prog outs)
      (prefSys p size (prefSt p (ps1, none) state buf (some (.got a)) pc) mode prog outs) :=
    .thread _ _ (PrefStep.item (size := size) (c := ofIter p) (prefSt p (ps, some none) state buf (some .reading) pc) a
      (ps1, none) rfl ⟨rfl, rfl, h1⟩)
  have s4 : UserStep (prefetchOver size (ofIter p))
      (prefSys p size (prefSt p (ps1, none) state buf (some (.got a)) pc) mode prog outs)
      (prefSys p size (prefSt p ((p.get ps1).1, none) state buf (some (.put (some (a, (p.get ps1).2)))) pc) mode prog outs) :=
    .thread _ _ (PrefStep.getState (size := size) (c := ofIter p) (prefSt p (ps1, none) state buf (some (.got a)) pc) a rfl)
  exact .tail (.tail (.tail (.tail (.refl _) s1) s2) s3) s4

/-- The thread puts it into the buffer. -/
theorem thread_puts {size : Nat} {a : α} {ck : p.C} (ps : p.S) (state : p.C) (buf : List (Option (α × p.C))) (pc : UserPc α p.C)
    (mode : CMode) (prog : List Op) (outs : List (Option α)) (hb : buf.length < size) :
    UserStep (prefetchOver size (ofIter p))
      (prefSys p size (prefSt p (ps, none) state buf (some (.put (some (a, ck)))) pc) mode prog outs)
      (prefSys p size (prefSt p (ps, none) state (buf ++ [some (a, ck)]) (some .check) pc) mode prog outs) :=
  .thread _ _ (PrefStep.put (size := size) (c := ofIter p)
    (prefSt p (ps, none) state buf (some (.put (some (a, ck)))) pc) (some (a, ck)) rfl hb)

/-- The thread fills the buffer. -/
theorem thread_fills (h : SimStream p (fun n => (x n).map .ok) At Ck) {size : Nat} (state : p.C) (pc : UserPc α p.C)
    (mode : CMode) (prog : List Op) (outs : List (Option α)) : ∀ (d n : Nat) {ps : p.S}
    {buf : List (Option (α × p.C))}, At ps n → buf.length + d = size →
    (∀ k, k ≤ n + d → (x k).isSome) →
    ∃ ps' buf' a ck, At ps' (n + d + 1) ∧ UserRun (prefetchOver size (ofIter p))
      (prefSys p size (prefSt p (ps, none) state buf (some .check) pc) mode prog outs)
      (prefSys p size (prefSt p (ps', none) state buf' (some (.put (some (a, ck)))) pc) mode prog outs) := by
  intro d
  induction d with
  | zero =>
    intro n ps buf hp hb hx
    obtain ⟨a, ha⟩ := Option.isSome_iff_exists.1 (hx n (by omega))
    obtain ⟨ps', ck, h1, h2⟩ := thread_reads h (size := size) ha hp state buf pc mode prog outs
    exact ⟨ps', buf, a, ck, h1, h2⟩
  | succ d ih =>
    intro n ps buf hp hb hx
    obtain ⟨a, ha⟩ := Option.isSome_iff_exists.1 (hx n (by omega))
    obtain ⟨ps', ck, h1, h2⟩ := thread_reads h (size := size) ha hp state buf pc mode prog outs
    have h3 := thread_puts (p := p) (size := size) (a := a) (ck := ck) ps' state buf pc mode prog outs (by omega)
    obtain ⟨ps2, buf2, a2, ck2, h4, h5⟩ := ih (n + 1) (buf := buf ++ [some (a, ck)]) h1 (by simp; omega)
      (fun k hk => hx k (by omega))
    refine ⟨ps2, buf2, a2, ck2, ?_, (UserRun.tail h2 h3).trans h5⟩
    rw [show n + (d + 1) + 1 = n + 1 + d + 1 by omega]
    exact h4

/-- After one `next` the thread has read the whole buffer and one more. -/
theorem prefetch_runs_ahead (h : SimStream p (fun n => (x n).map .ok) At Ck) {size : Nat} (hsize : 0 < size)
    (hx : ∀ n, n ≤ size + 1 → (x n).isSome) :
    ∃ s : UserSys (prefetchOver size (ofIter p)), UserRun (prefetchOver size (ofIter p)) (userInit _ [.next]) s ∧ s.finished ∧
      s.outs = [x 0] ∧ At (PrefState.cs s.st).1 (size + 2) := by
  obtain ⟨a, ha⟩ := Option.isSome_iff_exists.1 (hx 0 (by omega))
  obtain ⟨hg1, -⟩ := h.get h.init
  obtain ⟨ps, ck, h1, h2⟩ := thread_reads h (size := size) ha hg1 (p.get p.init).2 [] .take .next [] []
  have h3 := thread_puts (p := p) (size := size) (a := a) (ck := ck) ps (p.get p.init).2 [] .take .next [] [] hsize
  obtain ⟨ps', buf', a', ck', h4, h5⟩ := thread_fills h (size := size) ck .idle .idle [] [some a] size 1 (buf := []) h1 (by simp)
    (fun k hk => hx k (by omega))
  have s0 : UserStep (prefetchOver size (ofIter p)) (userInit _ [.next])
      (prefSys p size (prefSt p ((p.get p.init).1, none) (p.get p.init).2 [] none .enter) .next [] []) :=
    .next _ [] _ rfl rfl ⟨rfl, rfl⟩
  have s1 : UserStep (prefetchOver size (ofIter p))
      (prefSys p size (prefSt p ((p.get p.init).1, none) (p.get p.init).2 [] none .enter) .next [] [])
      (prefSys p size (prefSt p ((p.get p.init).1, none) (p.get p.init).2 [] (some .check) .take) .next [] []) :=
    .thread _ _ (PrefStep.start (size := size) (c := ofIter p)
      (prefSt p ((p.get p.init).1, none) (p.get p.init).2 [] none .enter) rfl hsize)
  have s2 : UserStep (prefetchOver size (ofIter p))
      (prefSys p size (prefSt p (ps, none) (p.get p.init).2 [some (a, ck)] (some .check) .take) .next [] [])
      (prefSys p size (prefSt p (ps, none) ck [] (some .check) (.done (some a))) .next [] []) :=
    .thread _ _ (PrefStep.take (size := size) (c := ofIter p)
      (prefSt p (ps, none) (p.get p.init).2 [some (a, ck)] (some .check) .take) a ck [] rfl rfl)
  have s3 : UserStep (prefetchOver size (ofIter p))
      (prefSys p size (prefSt p (ps, none) ck [] (some .check) (.done (some a))) .next [] [])
      (prefSys p size (prefSt p (ps, none) ck [] (some .check) .idle) .idle [] [some a]) :=
    .ret _ (some a) _ rfl ⟨rfl, rfl⟩
  refine ⟨_, (UserRun.tail (.tail (.refl _) s0) s1).trans
    (h2.trans (UserRun.trans (.tail (.tail (.tail (.refl _) h3) s2) s3) h5)), ⟨rfl, rfl⟩, ?_, ?_⟩
  · rw [ha]
  · rw [show size + 2 = 1 + size + 1 by omega]
    exact h4

end
end Grain
