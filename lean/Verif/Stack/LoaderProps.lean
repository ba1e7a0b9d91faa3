import Verif.Stack.LoaderLemmas
import Verif.Stack.InterleaveProps
import Verif.Loader.Props
/-
Property C105: a `DataLoader` with worker processes under every schedule.
-/
namespace Grain

variable {V : Type}

theorem follows_complete {c : ConcIter α} {x : Nat → Option α} {I : Nat → CMode → c.S → Prop} {K : Nat → c.C → Prop}
    (hF : Follows c x I K) {prog : List Op} {total : List (Option α)} (hspec : streamRun x 0 [] prog = some total) :
    (∀ s, UserRun c (userInit c prog) s →
      s.outs <+: total ∧ (s.finished → s.outs = total) ∧ (¬ s.finished → ∃ t, UserStep c s t)) ∧
    ∀ f : Nat → UserSys c, f 0 = userInit c prog → ¬ ∀ i, UserStep c (f i) (f (i + 1)) := by
  constructor
  · intro s hrun
    obtain ⟨n, ps, h1, h2, h3⟩ := userInv_run hF hspec hrun
    refine ⟨?_, ?_, user_live hF (userInv_run hF hspec hrun)⟩
    · revert h3
      cases s.mode <;> (rintro ⟨rest, -, rfl⟩; exact ⟨_, rfl⟩)
    · rintro ⟨hm, hp⟩
      rw [hm] at h3
      obtain ⟨rest, h4, h5⟩ := h3
      rw [hp] at h4
      simp only [streamRun, Option.some.injEq] at h4
      subst h4
      simpa using h5.symm
  · intro f h0 hall
    have hacc : Acc (fun t s => UserStep c s t) (f 0) := by
      rw [h0]
      exact user_acc hF (userInv_init hF hspec)
    have : ∀ s, Acc (fun t s => UserStep c s t) s → ∀ i, f i = s → False := by
      intro s hs
      induction hs with
      | intro s _ ih =>
        rintro i rfl
        exact ih _ (hall i) (i + 1) rfl
    exact this _ hacc 0 rfl

theorem turnsStream_inTurn {w : Nat} (vs : Nat → List α) (K : Nat) :
    turnsStream (w := w) (fun i => vs i.val) K = fun m => (inTurn (w + 1) vs K)[m]? := by
  funext m
  rw [inTurn_eq]
  rfl

/-- C105.  A data loader with any positive number of workers, any buffer sizes, shard and operations, if reading and the user
functions succeed (`rs` are the records of this shard, `ys i` what the operations make of those of worker `i`): whatever the
schedule of the main process, its prefetch threads and the worker processes, a user who reads, saves, goes back in the same
iterator or restarts after crashes sees one element from each worker in turn, as a sequential reader would; until the user is
done some process can go on; and no call takes for ever.  (`K` is any bound on the number of elements of a worker.) -/
theorem dataLoader_workers_invisible (conf : LoaderConf) {w : Nat} (hconf : conf.workers = w + 1) (hc : 0 < conf.shard.shardCount)
    (src : MapDs V) (s : Sampler) (size : Nat) (ops : List (DlOp (Option V))) (bufferSize threads : Nat) {workerBuffer : Nat}
    (hb : 0 < workerBuffer) (hv : ∀ op ∈ ops, op.valid) {rs : List (Rec (Option V))}
    (hrs : readAll (samplerDs src s conf.shard size) = some rs) (ys : Nat → List (Rec (Option V)))
    (hys : ∀ i, i < w + 1 → runOps ops (everyNth (w + 1) i rs) = some (ys i)) (K : Nat) (hK : ∀ i, i < w + 1 → (ys i).length ≤ K)
    {prog : List Op} {total : List (Option (Option V))}
    (hspec : streamRun (fun n => (inTurn (w + 1) (fun i => (ys i).map (·.data)) K)[n]?) 0 [] prog = some total) :
    let c := dataLoaderOver conf w workerBuffer (loaderFam ops (readFam bufferSize threads (samplerDs src s conf.shard size) (w + 1)))
    (∀ u, UserRun c (userInit c prog) u →
      u.outs <+: total ∧ (u.finished → u.outs = total) ∧ (¬ u.finished → ∃ t, UserStep c u t)) ∧
    ∀ f : Nat → UserSys c, f 0 = userInit c prog → ¬ ∀ i, UserStep c (f i) (f (i + 1)) := by
  intro c
  have hw : ∀ i : Fin (w + 1), ∃ P : (Nat → CMode → (prefetchOver workerBuffer (processOver workerBuffer false (ofIter
      ((loaderFam ops (readFam bufferSize threads (samplerDs src s conf.shard size) (w + 1))).fam.iter i.val)))).S → Prop) ×
      (Nat → Int → Prop), Follows (prefetchOver workerBuffer (processOver workerBuffer false (ofIter
      ((loaderFam ops (readFam bufferSize threads (samplerDs src s conf.shard size) (w + 1))).fam.iter i.val))))
      (fun m => ((ys i.val).map (·.data))[m]?) P.1 P.2 := by
    intro i
    have h1 := (worker_resumes bufferSize threads hv hrs (Nat.succ_pos w) i.isLt (hys i.val i.isLt)).stream
    have he : (fun n : Nat => (((ys i.val).map (·.data)).map (Except.ok : Option V → Py (Option V)))[n]?) =
        fun n => (((ys i.val).map (·.data))[n]?).map Except.ok := by
      funext n
      rw [List.getElem?_map]
    rw [he] at h1
    obtain ⟨I, Kc, hF⟩ := ofIter_follows h1
    exact ⟨(_, _), prefetch_follows (process_follows (kick := true) hF hb)⟩
  choose P hP using hw
  have hF := loader_follows (w := w) (fun i => (ys i.val).map (·.data)) (K := K) (fun i => by simpa using hK i.val i.isLt) hP conf hconf hc
    (fun _ (k : Int) => k) (fun _ (k : Int) => k) (fun _ _ => rfl)
  rw [turnsStream_inTurn (fun i => (ys i).map (·.data)) K] at hF
  exact follows_complete hF hspec

/-- C105: if every operation makes one element of one record, the user sees the elements in the order in which a data loader
without workers gives them, whatever the number of workers and the schedule. -/
theorem dataLoader_workers_same_order (conf : LoaderConf) {w : Nat} (hconf : conf.workers = w + 1) (hc : 0 < conf.shard.shardCount)
    (src : MapDs V) (s : Sampler) (size : Nat) (ops : List (DlOp (Option V))) (bufferSize threads : Nat) {workerBuffer : Nat}
    (hb : 0 < workerBuffer) (hone : ∀ op ∈ ops, op.oneToOne = true) {rs zs : List (Rec (Option V))}
    (hrs : readAll (samplerDs src s conf.shard size) = some rs) (hzs : runOps ops rs = some zs)
    {prog : List Op} {total : List (Option (Option V))}
    (hspec : streamRun (fun n => (zs.map (·.data))[n]?) 0 [] prog = some total) :
    let c := dataLoaderOver conf w workerBuffer (loaderFam ops (readFam bufferSize threads (samplerDs src s conf.shard size) (w + 1)))
    (∀ u, UserRun c (userInit c prog) u →
      u.outs <+: total ∧ (u.finished → u.outs = total) ∧ (¬ u.finished → ∃ t, UserStep c u t)) ∧
    ∀ f : Nat → UserSys c, f 0 = userInit c prog → ¬ ∀ i, UserStep c (f i) (f (i + 1)) := by
  refine dataLoader_workers_invisible conf hconf hc src s size ops bufferSize threads hb ?_ hrs (fun i => everyNth (w + 1) i zs)
    (fun i _ => runOps_everyNth (Nat.succ_pos w) i ops rs zs hone hzs) zs.length ?_ ?_
  · intro op hop
    have := hone op hop
    cases op <;> simp_all [DlOp.oneToOne, DlOp.valid]
  · intro i _
    unfold everyNth
    exact Nat.le_trans (List.length_filterMap_le _ _) (by simp)
  · have hmap : (fun i => (everyNth (w + 1) i zs).map (·.data)) = fun i => everyNth (w + 1) i (zs.map (·.data)) := by
      funext i
      apply List.ext_getElem?
      intro k
      rw [List.getElem?_map, everyNth_getElem? (Nat.succ_pos w), everyNth_getElem? (Nat.succ_pos w), List.getElem?_map]
    rw [hmap, inTurn_everyNth (Nat.succ_pos w) _ _ (by simp)]
    exact hspec

/-! ### The hypotheses are met -/

/-- Two workers of which the first keeps one of its two records (10, 12) and the second both (11, 13); a user who saves when the
first is used up, reads to the end, goes back in the same iterator and then restarts. -/
example : ∃ (src : MapDs Nat) (s : Sampler) (rs : List (Rec (Option Nat))) (ys : Nat → List (Rec (Option Nat))),
    readAll (samplerDs src s ⟨0, 1, false⟩ 4) = some rs ∧
    (∀ i, i < 2 → runOps [.filter (fun d => .ok (d ≠ some 10))] (everyNth 2 i rs) = some (ys i)) ∧
    (∀ i, i < 2 → (ys i).length ≤ 2) ∧
    streamRun (fun n => (inTurn 2 (fun i => (ys i).map (·.data)) 2)[n]?) 0 []
        [.next, .next, .save, .next, .next, .restore 0, .next, .fresh 0, .next, .next] =
      some [some (some 12), some (some 11), some (some 13), none, some (some 13), some (some 13), none] := by
  refine ⟨listSource [10, 11, 12, 13], (sequentialSampler 4 ⟨0, 1, false⟩ none).toOption.get rfl,
    [⟨⟨0, some 0, none⟩, some 10⟩, ⟨⟨1, some 1, none⟩, some 11⟩, ⟨⟨2, some 2, none⟩, some 12⟩, ⟨⟨3, some 3, none⟩, some 13⟩],
    fun w => if w = 0 then [⟨⟨2, some 2, none⟩, some 12⟩] else [⟨⟨1, some 1, none⟩, some 11⟩, ⟨⟨3, some 3, none⟩, some 13⟩],
    rfl, ?_, ?_, by decide⟩
  · intro w hw
    obtain rfl | rfl : w = 0 ∨ w = 1 := by omega
    · rfl
    · rfl
  · intro w _
    dsimp only
    split <;> simp

/-- Three workers, shard 1 of 2, a map. -/
example {prog : List Op} {total : List (Option (Option Nat))}
    (hspec : streamRun (fun n => ([some 22, some 26, some 30] : List (Option Nat))[n]?) 0 [] prog = some total) :
    ∃ c : ConcIter (Option Nat), ∀ u, UserRun c (userInit c prog) u → u.finished → u.outs = total :=
  ⟨_, fun u hu => ((dataLoader_workers_same_order ⟨⟨1, 2, false⟩, 3, "SequentialSampler(...)", "source"⟩ (w := 2) rfl (by decide)
    (listSource [10, 11, 12, 13, 14, 15, 16]) ((sequentialSampler 7 ⟨1, 2, false⟩ none).toOption.get rfl) 7
    [.map (fun d => .ok (d.map (· * 2)))] 4 2 (workerBuffer := 5) (by decide) (by intro op h; rw [List.mem_singleton.1 h]; rfl)
    (rs := [⟨⟨1, some 1, none⟩, some 11⟩, ⟨⟨3, some 3, none⟩, some 13⟩, ⟨⟨5, some 5, none⟩, some 15⟩])
    (zs := [⟨⟨1, some 1, none⟩, some 22⟩, ⟨⟨3, some 3, none⟩, some 26⟩, ⟨⟨5, some 5, none⟩, some 30⟩]) rfl rfl hspec).1 u hu).2.1⟩

end Grain
