import Verif.Queue.Spec
import Verif.Queue.Lemmas
/-
C43: variable size queues.  Every theorem is about all histories of `put`, `get` and `set_max_size` by any number of threads,
from a new queue.
-/
namespace Grain

/-! ### VariableSizeQueue -/

/-- Items are delivered in the order in which they were added, none is lost and none is delivered twice. -/
theorem vq_fifo (limit n : Nat) (as : List (VqStep α)) (s : VqState α) (h : vqRun (vqInit limit n) as = some s) :
    s.added = s.taken ++ s.items :=
  (vqRun_inv as (vqInit_inv limit n) h).fifo

/-- The queue holds at most as many items as the limit, or as there were when the limit was set. -/
theorem vq_bound (limit n : Nat) (as : List (VqStep α)) (s : VqState α) (h : vqRun (vqInit limit n) as = some s) :
    s.items.length ≤ max s.limit s.atSet :=
  (vqRun_inv as (vqInit_inv limit n) h).bound

/-- As long as `set_max_size` is not called, the queue holds at most as many items as the limit it was made with. -/
theorem vq_bound_fixed (limit n : Nat) (as : List (VqStep α)) (s : VqState α) (h : vqRun (vqInit limit n) as = some s)
    (hset : ∀ m, VqStep.setLimit m ∉ as) : s.items.length ≤ limit := by
  have hstep : ∀ (a : VqStep α) (s s' : VqState α), (∀ m, a ≠ .setLimit m) → vqStep s a = some s' → s'.limit = s.limit ∧ s'.atSet = s.atSet := by
    intro a s s' ha hs
    cases a with
    | setLimit m => exact absurd rfl (ha m)
    | _ =>
      simp only [vqStep] at hs
      repeat' split at hs
      all_goals first | cases hs; exact ⟨rfl, rfl⟩ | cases hs
  have hrun : ∀ (as : List (VqStep α)) (s s' : VqState α), (∀ m, VqStep.setLimit m ∉ as) → vqRun s as = some s' →
      s'.limit = s.limit ∧ s'.atSet = s.atSet := by
    intro as
    induction as with
    | nil => intro s s' _ hs; cases hs; exact ⟨rfl, rfl⟩
    | cons a as ih =>
      intro s s' hm hs
      simp only [vqRun, Option.bind_eq_some_iff] at hs
      obtain ⟨t, h1, h2⟩ := hs
      have hb := hstep a s t (fun m e => hm m (by simp [e])) h1
      have hc := ih t s' (fun m hmem => hm m (List.mem_cons_of_mem _ hmem)) h2
      exact ⟨hc.1.trans hb.1, hc.2.trans hb.2⟩
  have hb := vq_bound limit n as s h
  obtain ⟨h1, h2⟩ := hrun as _ s hset h
  rw [h1, h2] at hb
  simpa [vqInit] using hb

/-- Right after `put` added an item the queue holds at most as many items as the limit is now. -/
theorem vq_put_within_limit (limit n : Nat) (as : List (VqStep α)) (s s' : VqState α) (i : Nat)
    (h : vqRun (vqInit limit n) as = some s) (hs : vqStep s (.append i) = some s') :
    s'.items.length ≤ s'.limit ∧ ∃ v, s.pcs[i]? = some (.ready v) ∧ s'.items = s.items ++ [v] := by
  have hi := vqRun_inv as (vqInit_inv limit n) h
  simp only [vqStep] at hs
  split at hs <;> first | cases hs | skip
  rename_i v hpc
  split at hs <;> first | cases hs | skip
  rename_i hl
  have := (hi.held i hl).2
  exact ⟨by simp only [List.length_append, List.length_singleton]; omega, v, hpc, rfl⟩

theorem settled_busy {s : VqState α} : s.Settled ↔ wsum VqPc.busy s.pcs = 0 := by
  constructor
  · intro h
    apply Classical.byContradiction
    intro hne
    obtain ⟨i, pc, hpc, hp⟩ := wsum_pos _ (Nat.pos_of_ne_zero hne)
    rcases h pc (List.mem_of_getElem? hpc) with rfl | ⟨v, rfl⟩ <;> simp [VqPc.busy] at hp
  · intro h pc hm
    obtain ⟨i, hi⟩ := List.mem_iff_getElem?.1 hm
    have := wsum_get_le VqPc.busy hi
    cases pc with
    | idle => exact Or.inl rfl
    | waiting v => exact Or.inr ⟨v, rfl⟩
    | _ => simp only [VqPc.busy] at this; omega

/-- No wakeup is lost: once all operations have come to rest, a thread waits in `put` only if the queue is full. -/
theorem vq_no_lost_wakeup (limit n : Nat) (as : List (VqStep α)) (s : VqState α) (h : vqRun (vqInit limit n) as = some s)
    (hq : s.Settled) (hb : s.Blocked) : s.limit ≤ s.items.length := by
  obtain ⟨v, hv⟩ := hb
  obtain ⟨i, hi⟩ := List.mem_iff_getElem?.1 hv
  have := (vqRun_inv as (vqInit_inv limit n) h).wake i v hi
  rw [settled_busy.1 hq] at this
  exact this

theorem carriesOn_internal {a : VqStep α} : a.CarriesOn ↔ a.internal = true := by
  cases a <;> simp [VqStep.CarriesOn, VqStep.internal]

/-- The operations always come to rest: in any reachable state that is not at rest some thread can carry on, and the threads can
carry on for at most twice as many steps as there are threads. -/
theorem vq_comes_to_rest (limit n : Nat) (as : List (VqStep α)) (s : VqState α) (h : vqRun (vqInit limit n) as = some s) :
    (¬ s.Settled → ∃ a s', a.CarriesOn ∧ vqStep s a = some s') ∧
    ∀ bs s', (∀ b ∈ bs, b.CarriesOn) → vqRun s bs = some s' → bs.length ≤ 2 * s.pcs.length := by
  constructor
  · intro hq
    obtain ⟨a, s', h1, h2⟩ := vq_can_step (vqRun_inv as (vqInit_inv limit n) h)
      (Nat.pos_of_ne_zero (fun e => hq (settled_busy.2 e)))
    exact ⟨a, s', carriesOn_internal.2 h1, h2⟩
  · have key : ∀ (bs : List (VqStep α)) (s s' : VqState α), (∀ b ∈ bs, b.CarriesOn) → vqRun s bs = some s' →
        bs.length + wsum VqPc.work s'.pcs ≤ wsum VqPc.work s.pcs := by
      intro bs
      induction bs with
      | nil =>
        intro s s' _ hr
        cases hr
        simp
      | cons b bs ih =>
        intro s s' hb hr
        rw [vqRun] at hr
        obtain ⟨s1, e1, e2⟩ := Option.bind_eq_some_iff.1 hr
        have h1 := vqStep_work (carriesOn_internal.1 (hb b (List.mem_cons_self ..))) e1
        have h2 := ih s1 s' (fun c hc => hb c (List.mem_cons_of_mem _ hc)) e2
        rw [List.length_cons]
        omega
    intro bs s' hb hr
    have h1 := key bs s s' hb hr
    have h2 : ∀ l : List (VqPc α), wsum VqPc.work l ≤ 2 * l.length := by
      intro l
      induction l with
      | nil => simp [wsum]
      | cons pc l ih =>
        have hw : wsum VqPc.work (pc :: l) = VqPc.work pc + wsum VqPc.work l := by simp [wsum]
        have : VqPc.work pc ≤ 2 := by cases pc <;> simp [VqPc.work]
        rw [hw, List.length_cons]
        omega
    have := h2 s.pcs
    omega

/-- A blocked producer proceeds once there is room: when the queue has room while a producer waits, the threads that are inside an
operation do not stop before some waiting producer has added its item, or another producer filled the queue meanwhile. -/
theorem vq_blocked_proceeds (limit n : Nat) (as bs : List (VqStep α)) (s s' : VqState α)
    (h : vqRun (vqInit limit n) as = some s) (hb0 : s.Blocked) (hroom : s.items.length < s.limit)
    (hbs : ∀ b ∈ bs, b.CarriesOn) (hr : vqRun s bs = some s') (hq : s'.Settled) :
    (∃ vs, vs ≠ [] ∧ s'.items = s.items ++ vs) ∧ (s'.Blocked → s'.limit ≤ s'.items.length) := by
  have hrun : ∀ (as bs : List (VqStep α)) (s0 s s' : VqState α), vqRun s0 as = some s → vqRun s bs = some s' →
      vqRun s0 (as ++ bs) = some s' := by
    intro as bs
    induction as with
    | nil => intro s0 s s' h1 h2; cases h1; exact h2
    | cons a as ih =>
      intro s0 s s' h1 h2
      rw [vqRun] at h1
      obtain ⟨s1, e1, e2⟩ := Option.bind_eq_some_iff.1 h1
      rw [List.cons_append, vqRun, e1]
      exact ih s1 s s' e2 h2
  have hfull : s'.Blocked → s'.limit ≤ s'.items.length := vq_no_lost_wakeup limit n (as ++ bs) s' (hrun as bs _ _ _ h hr) hq
  refine ⟨?_, hfull⟩
  -- while nobody takes an item, items are only added, the limit stays, and the waiting producers neither leave nor go away
  have hstep : ∀ (b : VqStep α) (s s' : VqState α), VqInv s → b.CarriesOn → vqStep s b = some s' →
      s'.limit = s.limit ∧ ((∃ v, s'.items = s.items ++ [v]) ∨
        (s'.items = s.items ∧ (s.items.length < s.limit → (∃ pc ∈ s.pcs, pc ≠ .idle ∧ pc ≠ .got) →
          ∃ pc ∈ s'.pcs, pc ≠ .idle ∧ pc ≠ .got))) := by
    intro b s s' hi hb hs
    cases b with
    | put i v => cases hb
    | timeout i => cases hb
    | take i => cases hb
    | setLimit n => cases hb
    | check i giveUp =>
      simp only [vqStep] at hs
      split at hs <;> first | cases hs | skip
      rename_i v hpc hlock
      have hlt := (List.getElem?_eq_some_iff.1 hpc).1
      split at hs
      · rename_i hge
        cases hs
        exact ⟨rfl, Or.inr ⟨rfl, fun hlt' _ => by omega⟩⟩
      · cases hs
        exact ⟨rfl, Or.inr ⟨rfl, fun _ _ => ⟨.ready v,
          List.mem_iff_getElem?.2 ⟨i, by rw [List.getElem?_set_self hlt]⟩, by simp, by simp⟩⟩⟩
    | append i =>
      simp only [vqStep] at hs
      split at hs <;> first | cases hs | skip
      rename_i v hpc
      split at hs <;> first | cases hs | skip
      exact ⟨rfl, Or.inl ⟨v, rfl⟩⟩
    | notify i woken =>
      simp only [vqStep] at hs
      split at hs <;> first | cases hs | skip
      rename_i hpc hlock
      split at hs
      · split at hs <;> first | cases hs | skip
        refine ⟨rfl, Or.inr ⟨rfl, ?_⟩⟩
        rintro _ ⟨pc, hm, h1, h2⟩
        obtain ⟨j, hj⟩ := List.mem_iff_getElem?.1 hm
        have hne : i ≠ j := by rintro rfl; rw [hpc] at hj; injection hj with hj; exact h2 hj.symm
        exact ⟨pc, List.mem_iff_getElem?.2 ⟨j, by rw [List.getElem?_set_ne hne]; exact hj⟩, h1, h2⟩
      · rename_i j
        split at hs <;> first | cases hs | skip
        rename_i v hj
        refine ⟨rfl, Or.inr ⟨rfl, ?_⟩⟩
        intro _ _
        have hlt := (List.getElem?_eq_some_iff.1 hj).1
        exact ⟨.trying v, List.mem_iff_getElem?.2 ⟨j, by rw [List.getElem?_set_self (by rw [List.length_set]; exact hlt)]⟩,
          by simp, by simp⟩
  have hmono : ∀ (bs : List (VqStep α)) (s s' : VqState α), VqInv s → (∀ b ∈ bs, b.CarriesOn) → vqRun s bs = some s' →
      s'.limit = s.limit ∧ (∃ vs, s'.items = s.items ++ vs) ∧
      (s.items.length < s.limit → (∃ pc ∈ s.pcs, pc ≠ .idle ∧ pc ≠ .got) → s'.items = s.items →
        ∃ pc ∈ s'.pcs, pc ≠ .idle ∧ pc ≠ .got) := by
    intro bs
    induction bs with
    | nil =>
      intro s s' _ _ hr
      cases hr
      exact ⟨rfl, ⟨[], by simp⟩, fun _ h _ => h⟩
    | cons b bs ih =>
      intro s s' hi hb hr
      rw [vqRun] at hr
      obtain ⟨s1, e1, e2⟩ := Option.bind_eq_some_iff.1 hr
      have hb1 := hstep b s s1 hi (hb b (List.mem_cons_self ..)) e1
      obtain ⟨i1, ⟨vs, i2⟩, i3⟩ := ih s1 s' (vqStep_inv hi e1) (fun c hc => hb c (List.mem_cons_of_mem _ hc)) e2
      obtain ⟨hl, ⟨v, hv⟩ | ⟨hv, hk⟩⟩ := hb1
      · refine ⟨by rw [i1, hl], ⟨v :: vs, by rw [i2, hv]; simp⟩, ?_⟩
        intro _ _ he
        rw [i2, hv] at he
        have := congrArg List.length he
        simp only [List.length_append, List.length_cons, List.length_nil] at this
        omega
      · refine ⟨by rw [i1, hl], ⟨vs, by rw [i2, hv]⟩, ?_⟩
        intro hlt hp he
        exact i3 (by rw [hv, hl]; exact hlt) (hk hlt hp) (by rw [he, hv])
  obtain ⟨hl, ⟨vs, hvs⟩, hkeep⟩ := hmono bs s s' (vqRun_inv as (vqInit_inv limit n) h) hbs hr
  refine ⟨vs, ?_, hvs⟩
  rintro rfl
  rw [List.append_nil] at hvs
  obtain ⟨v, hv⟩ := hb0
  obtain ⟨pc, hm, h1, h2⟩ := hkeep hroom ⟨_, hv, by simp, by simp⟩ hvs
  rcases hq pc hm with rfl | ⟨w, rfl⟩
  · exact h1 rfl
  · have := hfull ⟨w, hm⟩
    rw [hl, hvs] at this
    omega

/-- Three threads and the limit 1: one adds an item, another waits, the third takes the item and wakes the second. -/
def vqDemo : List (VqStep Nat) :=
  [.put 0 10, .check 0 false, .append 0, .put 1 11, .check 1 false, .take 2, .notify 2 (some 1), .check 1 false, .append 1]

example : (vqRun (vqInit 1 3) (vqDemo.take 5)).map (fun s => (s.items, s.limit, s.pcs)) = some ([10], 1, [.idle, .waiting 11, .idle]) := rfl
example : (vqRun (vqInit 1 3) (vqDemo.take 6)).map (fun s => (s.items, s.limit, s.pcs)) = some ([], 1, [.idle, .waiting 11, .got]) := rfl
example : (vqRun (vqInit 1 3) vqDemo).map (fun s => (s.added, s.taken, s.items, s.pcs)) =
    some ([10, 11], [10], [11], [.idle, .idle, .idle]) := rfl
example : ∃ s, vqRun (vqInit 1 3) (vqDemo.take 5) = some s ∧ s.Settled ∧ s.Blocked :=
  ⟨_, rfl, by
    intro pc hm
    have hm : pc ∈ [VqPc.idle, .waiting 11, .idle] := hm
    simp at hm
    rcases hm with rfl | rfl | rfl
    · exact Or.inl rfl
    · exact Or.inr ⟨11, rfl⟩
    · exact Or.inl rfl, ⟨11, by decide⟩⟩
example : ∃ s s', vqRun (vqInit 1 3) (vqDemo.take 6) = some s ∧ s.Blocked ∧ s.items.length < s.limit ∧
    vqRun s (vqDemo.drop 6) = some s' ∧ s'.Settled :=
  ⟨_, _, rfl, ⟨11, by decide⟩, by decide, rfl, by
    intro pc hm
    have hm : pc ∈ [VqPc.idle, .idle, .idle] := hm
    simp at hm
    exact Or.inl hm⟩
/-- Lowering the limit: two items stay, and nothing is added until there is room. -/
example : (vqRun (vqInit 2 3) [.put 0 10, .check 0 false, .append 0, .put 0 11, .check 0 false, .append 0, .setLimit 1, .put 0 12,
    .check 0 true] : Option (VqState Nat)).map (fun s => (s.items, s.limit, s.atSet, s.pcs)) =
    some ([10, 11], 1, 2, [.idle, .idle, .idle]) := rfl

/-! ### VariableSizeMultiprocessingQueue -/

theorem mqStep_bufs {proc : Nat → Nat} {s s' : MqState α} {a : MqStep α} (hs : mqStep proc s a = some s') :
    s'.bufs.length = s.bufs.length := by
  cases a <;> simp only [mqStep] at hs <;> (repeat' split at hs) <;> first | cases hs; simp | cases hs

theorem mqRun_bufs {proc : Nat → Nat} : ∀ (as : List (MqStep α)) {s s' : MqState α}, mqRun proc s as = some s' →
    s'.bufs.length = s.bufs.length
  | [], s, s', hr => by cases hr; rfl
  | a :: as, s, s', hr => by
    rw [mqRun] at hr
    obtain ⟨s1, e1, e2⟩ := Option.bind_eq_some_iff.1 hr
    rw [mqRun_bufs as e2, mqStep_bufs e1]

/-- Items of one process are delivered in the order in which the process put them, none is lost and none is delivered twice. -/
theorem mq_fifo (proc : Nat → Nat) (limit procs threads : Nat) (as : List (MqStep α)) (s : MqState α)
    (h : mqRun proc (mqInit limit procs threads) as = some s) (p : Nat) (hp : p < procs) :
    ∃ inQueue, fromProc p s.put = fromProc p s.taken ++ inQueue ∧ inQueue.length ≤ s.used := by
  have hlen := mqRun_bufs as h
  have hlt : p < s.bufs.length := by rw [hlen]; simpa [mqInit] using hp
  have hb : s.bufs[p]? = some s.bufs[p] := List.getElem?_eq_getElem hlt
  refine ⟨fromProc p s.pipe ++ s.bufs[p], ?_, ?_⟩
  · rw [(mqRun_inv as (mqInit_inv limit procs threads) h).fifo p _ hb, List.append_assoc]
  · have h1 := wsum_get_le List.length hb
    have h2 : (fromProc p s.pipe).length ≤ s.pipe.length := by
      unfold fromProc
      rw [List.length_map]
      exact List.length_filter_le _ _
    rw [used_eq, List.length_append]
    omega

/-- A producer is held back only when the queue is full. -/
theorem mq_blocked_full (proc : Nat → Nat) (limit procs threads : Nat) (as : List (MqStep α)) (s : MqState α)
    (h : mqRun proc (mqInit limit procs threads) as = some s) (i : Nat) (v : α) (hi : s.pcs[i]? = some .idle)
    (hb : mqStep proc s (.acquire i v) = none) : s.limit ≤ s.used := by
  have hc := (mqRun_inv as (mqInit_inv limit procs threads) h).count
  simp only [mqStep, hi] at hb
  split at hb
  · cases hb
  · omega

theorem mqRun_bound {proc : Nat → Nat} : ∀ (as : List (MqStep α)) {s s' : MqState α}, MqBound s → GrowsWhenSettled proc s as →
    mqRun proc s as = some s' → MqBound s'
  | [], s, s', h, _, hr => by cases hr; exact h
  | a :: as, s, s', h, hg, hr => by
    rw [mqRun] at hr
    obtain ⟨s1, e1, e2⟩ := Option.bind_eq_some_iff.1 hr
    exact mqRun_bound as (mqStep_bound h hg.1 e1) (hg.2 s1 e1) e2

/-- The queue holds at most as many items as the limit, or as there were when `set_max_size` last returned.

Partial: only for histories in which the limit is not raised before the items that an earlier lower limit excludes have been taken;
without that the queue can exceed every bound, see `mq_unbounded`. -/
theorem mq_bound_partial (proc : Nat → Nat) (limit procs threads : Nat) (as : List (MqStep α)) (s : MqState α)
    (h : mqRun proc (mqInit limit procs threads) as = some s) (hg : GrowsWhenSettled proc (mqInit limit procs threads) as)
    (hr : s.resizing = none) : s.used ≤ max s.limit s.atSet := by
  have hc := (mqRun_inv as (mqInit_inv limit procs threads) h).count
  have hb := mqRun_bound as (s := mqInit limit procs threads) ⟨fun _ => Or.inl rfl, (fun k hk => by cases hk)⟩ hg h
  rcases hb.idle hr with h1 | ⟨_, h1⟩ <;> omega

/-- Of a history in which the limit is never raised the restriction is met. -/
theorem mq_bound_never_raised (proc : Nat → Nat) (limit procs threads : Nat) (as : List (MqStep α)) (s : MqState α)
    (h : mqRun proc (mqInit limit procs threads) as = some s)
    (hg : ∀ (l r : List (MqStep α)) (n : Nat) (s' : MqState α), as = l ++ .setLimit n :: r →
      mqRun proc (mqInit limit procs threads) l = some s' → n ≤ s'.limit)
    (hr : s.resizing = none) : s.used ≤ max s.limit s.atSet := by
  refine mq_bound_partial proc limit procs threads as s h ?_ hr
  have key : ∀ (as : List (MqStep α)) (s0 : MqState α), (∀ (l r : List (MqStep α)) (n : Nat) (s' : MqState α),
      as = l ++ .setLimit n :: r → mqRun proc s0 l = some s' → n ≤ s'.limit) → GrowsWhenSettled proc s0 as := by
    intro as
    induction as with
    | nil => intro _ _; trivial
    | cons a as ih =>
      intro s0 hg
      refine ⟨?_, ?_⟩
      · rintro n rfl hlt
        have := hg [] as n s0 rfl rfl
        omega
      · intro s1 e1
        refine ih s1 (fun l r n s' e hl => ?_)
        exact hg (a :: l) r n s' (by rw [e]; rfl) (by rw [mqRun, e1]; exact hl)
  exact key as _ hg

/-- One thread puts an item. -/
def mqPut (v : α) : List (MqStep α) := [.acquire 0 v, .enqueue 0]

theorem mqRun_append (proc : Nat → Nat) : ∀ (as bs : List (MqStep α)) (s : MqState α),
    mqRun proc s (as ++ bs) = (mqRun proc s as).bind (fun s' => mqRun proc s' bs)
  | [], _, _ => rfl
  | a :: as, bs, s => by
    rw [List.cons_append, mqRun, mqRun]
    cases mqStep proc s a with
    | none => rfl
    | some s1 => exact mqRun_append proc as bs s1

/-- The full claim is false: a queue with the limit 4, filled, lowered to 2 and raised to 4 again before an item was taken accepts
two more items. -/
theorem mq_bound_false : ∃ (as : List (MqStep Nat)) (s : MqState Nat), mqRun (fun _ => 0) (mqInit 4 1 1) as = some s ∧
    s.resizing = none ∧ ¬ s.used ≤ max s.limit s.atSet :=
  ⟨mqPut 0 ++ mqPut 1 ++ mqPut 2 ++ mqPut 3 ++ [.setLimit 2, .shrink, .setLimit 4] ++ mqPut 4 ++ mqPut 5, _, rfl, rfl, by decide⟩

/-- And there is no bound at all: lowering and raising the limit between 2 and 4 again and again, while nobody takes an item, makes
the queue hold any number of items. -/
theorem mq_unbounded (N : Nat) : ∃ (as : List (MqStep Unit)) (s : MqState Unit),
    (∀ n, MqStep.setLimit n ∈ as → n = 2 ∨ n = 4) ∧ mqRun (fun _ => 0) (mqInit 4 1 1) as = some s ∧
    s.limit = 4 ∧ s.taken = [] ∧ N ≤ s.used := by
  have key : ∀ k : Nat, ∃ (as : List (MqStep Unit)) (b : List Unit) (put : List (Nat × Unit)) (at0 : Nat),
      (∀ n, MqStep.setLimit n ∈ as → n = 2 ∨ n = 4) ∧ b.length = 4 + 2 * k ∧
      mqRun (fun _ => 0) (mqInit 4 1 1) as = some (MqState.mk 0 4 (2 * k) none [b] [] [.idle] put [] at0) := by
    intro k
    induction k with
    | zero => exact ⟨mqPut () ++ mqPut () ++ mqPut () ++ mqPut (), _, _, _, by simp [mqPut], by rfl, rfl⟩
    | succ k ih =>
      obtain ⟨as, b, put, at0, h1, h2, h3⟩ := ih
      refine ⟨as ++ ([.setLimit 2, .shrink, .setLimit 4] ++ mqPut () ++ mqPut ()), b ++ [()] ++ [()], put ++ [(0, ())] ++ [(0, ())],
        (MqState.mk 0 4 (2 * k) none [b] [] [.idle] put [] at0).used, ?_, ?_, ?_⟩
      · intro n hn
        rcases List.mem_append.1 hn with hn | hn
        · exact h1 n hn
        · simp [mqPut] at hn
          omega
      · simp [h2]
        omega
      · rw [mqRun_append, h3]
        rfl
  obtain ⟨as, b, put, at0, h1, h2, h3⟩ := key N
  refine ⟨as, _, h1, h3, rfl, rfl, ?_⟩
  have : b.length ≤ (MqState.mk 0 4 (2 * N) none [b] [] [.idle] put [] at0).used := by simp [MqState.used]
  omega

/-- A history that meets the restriction of `mq_bound_partial` and in which the limit is lowered below the number of items. -/
def mqDemo : List (MqStep Nat) :=
  mqPut 0 ++ mqPut 1 ++ mqPut 2 ++ [.setLimit 1, .shrink, .feed 0, .recv 0, .release 0]

example : ∃ s, mqRun (fun _ => 0) (mqInit 3 1 1) mqDemo = some s ∧ s.resizing = none ∧ s.limit = 1 ∧ s.atSet = 3 ∧ s.used = 2 ∧
    GrowsWhenSettled (fun _ => 0) (mqInit 3 1 1) mqDemo := by
  refine ⟨_, rfl, rfl, rfl, rfl, rfl, ?_⟩
  repeat (first | trivial | (refine ⟨by rintro n h; cases h <;> decide, ?_⟩; intro s' e; cases e))

end Grain
