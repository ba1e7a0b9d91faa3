import Verif.Stack.StartLemmas
import Verif.Stack.LoaderProps
/-
C106: `start_prefetch()` changes only how early elements are read.
-/
namespace Grain

variable {α V : Type}

/-- C106: a user who reads, saves, goes back, restarts after crashes, and between any of these calls `start_prefetch()` – before the
first element, after a restore, at the end of the data, as often as they like – sees, whatever the schedule, what a sequential
reader sees who never calls it; until the user is done some thread can go on; and no schedule goes on for ever. -/
theorem start_prefetch_invisible {c : ConcIter α} {x : Nat → Option α} {kick : c.S → c.S} (h : Kicked c x kick) {ops : List Op}
    {later : List (List Op)} {total : List (Option α)} (hspec : streamRun x 0 [] (ops ++ later.flatten) = some total) :
    (∀ s, KickRun c kick (kickInit c ops later) s →
      s.user.outs <+: total ∧ (s.finished → s.user.outs = total) ∧ (¬ s.finished → ∃ t, KickStep c kick s t)) ∧
    ∀ f : Nat → KickSys c, f 0 = kickInit c ops later → ¬ ∀ i, KickStep c kick (f i) (f (i + 1)) := by
  obtain ⟨-, I, K, hF, hk⟩ := h.kicks
  exact kick_complete hF hk hspec

/-- C106, for C100: an interleave whose pool of threads makes the iterators of further datasets and starts their prefetching ahead
of time, at any moments. -/
theorem interleave_started_ahead_invisible {n : Nat} {c : Fin n → ConcIter α} {x : Fin n → Nat → Option α}
    {kick : (i : Fin n) → (c i).S → (c i).S} (cycle : Nat) (hL : min cycle n - 1 < n) (h : ∀ i, Kicked (c i) (x i) (kick i))
    {prog : List Op} {total : List (Option α)} (hspec : streamRun (streamInterleave x hL) 0 [] prog = some total) :
    let e := interleaveOver n cycle (fun i => warmOver (c i) (kick i))
    (∀ s, UserRun e (userInit e prog) s →
      s.outs <+: total ∧ (s.finished → s.outs = total) ∧ (¬ s.finished → ∃ t, UserStep e s t)) ∧
    ∀ f : Nat → UserSys e, f 0 = userInit e prog → ¬ ∀ i, UserStep e (f i) (f (i + 1)) := by
  obtain ⟨-, I, K, hF, -⟩ := (Kicked.interleave cycle hL fun i => .warmed (h i)).kicks
  exact follows_complete hF hspec

/-- C106: the same of a data loader with worker processes (`DataLoaderIterator.start_prefetch`, data_loader.py:578-590, reaches the
workers whose iterators have been made). -/
theorem dataLoader_start_prefetch_invisible (conf : LoaderConf) {w : Nat} (hconf : conf.workers = w + 1) (hc : 0 < conf.shard.shardCount)
    (src : MapDs V) (s : Sampler) (size : Nat) (ops : List (DlOp (Option V))) (bufferSize threads : Nat) {workerBuffer : Nat}
    (hb : 0 < workerBuffer) (hv : ∀ op ∈ ops, op.valid) {rs : List (Rec (Option V))}
    (hrs : readAll (samplerDs src s conf.shard size) = some rs) (ys : Nat → List (Rec (Option V)))
    (hys : ∀ i, i < w + 1 → runOps ops (everyNth (w + 1) i rs) = some (ys i)) (K : Nat) (hK : ∀ i, i < w + 1 → (ys i).length ≤ K)
    {prog : List Op} {later : List (List Op)} {total : List (Option (Option V))}
    (hspec : streamRun (fun n => (inTurn (w + 1) (fun i => (ys i).map (·.data)) K)[n]?) 0 [] (prog ++ later.flatten) = some total) :
    let c := dataLoaderOver conf w workerBuffer (loaderFam ops (readFam bufferSize threads (samplerDs src s conf.shard size) (w + 1)))
    let kick : c.S → c.S := interleaveKick (w + 1) w (fun _ => prefetchKick)
    (∀ u, KickRun c kick (kickInit c prog later) u →
      u.user.outs <+: total ∧ (u.finished → u.user.outs = total) ∧ (¬ u.finished → ∃ t, KickStep c kick u t)) ∧
    ∀ f : Nat → KickSys c, f 0 = kickInit c prog later → ¬ ∀ i, KickStep c kick (f i) (f (i + 1)) := by
  intro c kick
  have hw : ∀ i : Fin (w + 1), ∃ P : (Nat → CMode → (prefetchOver workerBuffer (processOver workerBuffer false (ofIter
      ((loaderFam ops (readFam bufferSize threads (samplerDs src s conf.shard size) (w + 1))).fam.iter i.val)))).S → Prop) ×
      (Nat → Int → Prop), Follows (prefetchOver workerBuffer (processOver workerBuffer false (ofIter
      ((loaderFam ops (readFam bufferSize threads (samplerDs src s conf.shard size) (w + 1))).fam.iter i.val))))
      (fun m => ((ys i.val).map (·.data))[m]?) P.1 P.2 ∧ Kicks _ P.1 prefetchKick := by
    intro i
    have h1 := (worker_resumes bufferSize threads hv hrs (Nat.succ_pos w) i.isLt (hys i.val i.isLt)).stream
    have he : (fun n : Nat => (((ys i.val).map (·.data)).map (Except.ok : Option V → Py (Option V)))[n]?) =
        fun n => (((ys i.val).map (·.data))[n]?).map Except.ok := by
      funext n
      rw [List.getElem?_map]
    rw [he] at h1
    obtain ⟨I, Kc, hF⟩ := ofIter_follows h1
    exact ⟨(_, _), prefetch_follows (process_follows (kick := true) hF hb), prefetch_kicks hb⟩
  choose P hP hk using hw
  have hF := loader_follows (w := w) (fun i => (ys i.val).map (·.data)) (K := K) (fun i => by simpa using hK i.val i.isLt) hP conf hconf hc
    (fun _ (k : Int) => k) (fun _ (k : Int) => k) (fun _ _ => rfl)
  rw [turnsStream_inTurn (fun i => (ys i).map (·.data)) K] at hF
  exact kick_complete hF (interleave_kicks hk) hspec

/-! ### The hypotheses are met -/

/-- Two datasets, a thread prefetch and a process prefetch, mixed in turns and batched; `start_prefetch` before the first element,
after a save, after the end and twice after a restore. -/
example : ∃ (c : ConcIter (List Nat)) (x : Nat → Option (List Nat)) (kick : c.S → c.S), Kicked c x kick ∧
    streamRun x 0 [] ([] ++ [[.next, .save, .next], [.next, .next], [.restore 0], [], [.next, .fresh 0], [.next]].flatten) =
      some [some [1, 1, 2], some [2, 3, 3], some [4, 4, 5], some [5], some [2, 3, 3], some [2, 3, 3]] := by
  refine ⟨_, _, _, .batch 3 false (by omega) (.mix (n := 2) (fun m => ⟨m % 2, by omega⟩)
    (c := fun i => match i with
      | 0 => prefetchOver 2 fiveSource
      | 1 => processOver 1 false (prefetchOver 0 fiveSource))
    (x := fun _ n => [1, 2, 3, 4, 5][n]?)
    (k := fun i => match i with
      | 0 => prefetchKick
      | 1 => processKick)
    (fun i => match i with
      | 0 => .prefetch 2 (by omega) five_source
      | 1 => .process 1 false (by omega) (.prefetch 0 five_source))), ?_⟩
  decide +kernel

/-- A prefetched interleave of two datasets, each with a process prefetch under a thread prefetch, that are started ahead of time. -/
example : ∃ (c : ConcIter Nat) (x : Nat → Option Nat) (kick : c.S → c.S), Kicked c x kick ∧
    ∃ total, streamRun x 0 [] ([.next] ++ [[.next, .next, .save], [.next], [.fresh 0], [.next]].flatten) = some total :=
  ⟨_, _, _, .prefetchOn 2 (by omega) (.interleave (n := 2) 2 (by decide) fun _ =>
    .warmed (.prefetch 1 (by omega) (.process 1 false (by omega) five_source))), _, rfl⟩

/-- `start_prefetch` does start something: the thread of a prefetch, the worker of a process prefetch, of each iterator in a slot of
an interleave, and also after the end of the data. -/
example : (prefetchKick (prefetchOver 2 fiveSource).init).thr = some .check ∧
    ((processKick (processOver 2 false fiveSource).init).wrk.map (·.exh)) = some false ∧
    (processKick { (processOver 2 false fiveSource).init with over := true }).over = true := ⟨rfl, rfl, rfl⟩

/-- A run in which `start_prefetch` is called first: the thread has an element ready before the user asks for one. -/
example : ∃ s, KickRun (prefetchOver 1 (ofIter (listIter ([1, 2].map .ok)))) prefetchKick (kickInit _ [] [[.next]]) s ∧
    s.user.prog = [.next] ∧ (show PrefState _ from s.user.st).buf.length = 1 := by
  let p := listIter ([1, 2].map (Except.ok : Nat → Py Nat))
  let sys (i : Nat) (m : Option (Option p.C)) (buf : List (Option (Nat × (ofIter p).C))) (thr : PrefPc Nat (ofIter p).C) :
      KickSys (prefetchOver 1 (ofIter p)) :=
    ⟨{ st := ({ cs := ((i : p.S), m), state := ((0 : Nat) : p.C), buf := buf, thr := some thr, flag := false, pc := .idle } :
        PrefState (ofIter p)), mode := .idle, prog := [.next], saved := [], outs := [] }, []⟩
  have h1 : KickStep _ prefetchKick (kickInit (prefetchOver 1 (ofIter p)) [] [[.next]]) (sys 0 none [] .check) :=
    .start _ _ _ ⟨rfl, rfl⟩
  have h2 : KickStep _ prefetchKick (sys 0 none [] .check) (sys 0 none [] .call) := .other _ _ _ (.thread _ _ (PrefStep.check _ rfl))
  have h3 : KickStep _ prefetchKick (sys 0 none [] .call) (sys 0 (some none) [] .reading) :=
    .other _ _ _ (.thread _ _ (PrefStep.call (show PrefState (ofIter p) from (sys 0 none [] .call).user.st) ((0 : Nat), some none) rfl ⟨rfl, rfl⟩))
  have h4 : KickStep _ prefetchKick (sys 0 (some none) [] .reading) (sys 1 none [] (.got 1)) :=
    .other _ _ _ (.thread _ _ (PrefStep.item (show PrefState (ofIter p) from (sys 0 (some none) [] .reading).user.st) 1 ((1 : Nat), none)
      rfl ⟨rfl, rfl, 0, fun F _ => rfl⟩))
  have h5 : KickStep _ prefetchKick (sys 1 none [] (.got 1)) (sys 1 none [] (.put (some (1, (1 : Nat))))) :=
    .other _ _ _ (.thread _ _ (PrefStep.getState _ 1 rfl))
  have h6 : KickStep _ prefetchKick (sys 1 none [] (.put (some (1, (1 : Nat))))) (sys 1 none [some (1, (1 : Nat))] .check) :=
    .other _ _ _ (.thread _ _ (PrefStep.put _ _ rfl (by decide)))
  exact ⟨_, .tail (.tail (.tail (.tail (.tail (.tail (.refl _) h1) h2) h3) h4) h5) h6, rfl, rfl⟩

end Grain
