import Verif.Queue.Spec
/-
Invariants of the variable size queues.
-/
namespace Grain

/-- Weighted sum over a list. -/
def wsum (w : β → Nat) (l : List β) : Nat := (l.map w).sum

theorem wsum_set (w : β → Nat) : ∀ {l : List β} {i : Nat} {a : β} (b : β), l[i]? = some a → wsum w (l.set i b) + w a = wsum w l + w b
  | [], i, a, b, h => by simp at h
  | x :: l, 0, a, b, h => by
    simp only [List.getElem?_cons_zero, Option.some.injEq] at h
    subst h
    simp only [List.set_cons_zero, wsum, List.map_cons, List.sum_cons]
    omega
  | x :: l, i + 1, a, b, h => by
    simp only [List.getElem?_cons_succ] at h
    have := wsum_set w b h
    simp only [List.set_cons_succ, wsum, List.map_cons, List.sum_cons] at this ⊢
    omega

theorem wsum_get_le (w : β → Nat) : ∀ {l : List β} {i : Nat} {a : β}, l[i]? = some a → w a ≤ wsum w l
  | [], i, a, h => by simp at h
  | x :: l, 0, a, h => by
    simp only [List.getElem?_cons_zero, Option.some.injEq] at h
    subst h
    simp only [wsum, List.map_cons, List.sum_cons]
    omega
  | x :: l, i + 1, a, h => by
    simp only [List.getElem?_cons_succ] at h
    have := wsum_get_le w h
    simp only [wsum, List.map_cons, List.sum_cons] at this ⊢
    omega

theorem wsum_pos (w : β → Nat) : ∀ {l : List β}, 0 < wsum w l → ∃ (i : Nat) (a : β), l[i]? = some a ∧ 0 < w a
  | [], h => by simp [wsum] at h
  | x :: l, h => by
    by_cases hx : 0 < w x
    · exact ⟨0, x, rfl, hx⟩
    · simp only [wsum, List.map_cons, List.sum_cons] at h
      obtain ⟨i, a, h1, h2⟩ := wsum_pos w (l := l) (by unfold wsum; omega)
      exact ⟨i + 1, a, by simpa using h1, h2⟩

/-! ### VariableSizeQueue -/

/-- 1 for a thread in the middle of an operation that does not wait. -/
def VqPc.busy : VqPc α → Nat
  | .trying _ => 1
  | .ready _ => 1
  | .got => 1
  | _ => 0

/-- How many steps a thread can make at most before it is idle or waits again. -/
def VqPc.work : VqPc α → Nat
  | .trying _ => 2
  | .ready _ => 1
  | .waiting _ => 1
  | .got => 2
  | .idle => 0

structure VqInv (s : VqState α) : Prop where
  fifo : s.added = s.taken ++ s.items
  bound : s.items.length ≤ max s.limit s.atSet
  held : ∀ i, s.lock = some i → (∃ v, s.pcs[i]? = some (.ready v)) ∧ s.items.length < s.limit
  ready : ∀ (i : Nat) (v : α), s.pcs[i]? = some (.ready v) → s.lock = some i
  wake : ∀ (i : Nat) (v : α), s.pcs[i]? = some (.waiting v) → s.limit ≤ s.items.length + wsum VqPc.busy s.pcs

theorem vqInit_inv (limit n : Nat) : VqInv (vqInit limit n : VqState α) := by
  have hidle : ∀ (i : Nat) (pc : VqPc α), (List.replicate n (VqPc.idle : VqPc α))[i]? = some pc → pc = .idle := by
    intro i pc h
    exact List.eq_of_mem_replicate (List.mem_of_getElem? h)
  refine ⟨rfl, by simp [vqInit], (fun i h => by cases h), ?_, ?_⟩
  · intro i v h
    cases hidle i _ h
  · intro i v h
    cases hidle i _ h

theorem set_get_cases {l : List β} {i j : Nat} {a b : β} (h : (l.set i a)[j]? = some b) : (j = i ∧ b = a) ∨ (j ≠ i ∧ l[j]? = some b) := by
  rw [List.getElem?_set] at h
  split at h
  · rename_i hij
    split at h
    · injection h with h
      exact Or.inl ⟨hij.symm, h.symm⟩
    · cases h
  · rename_i hij
    exact Or.inr ⟨fun h' => hij h'.symm, h⟩

theorem vqStep_inv {s s' : VqState α} {a : VqStep α} (h : VqInv s) (hs : vqStep s a = some s') : VqInv s' := by
  obtain ⟨h1, h2, h3, h4, h5⟩ := h
  cases a with
  | put i v =>
    simp only [vqStep] at hs
    split at hs <;> first | cases hs | skip
    rename_i hpc
    have hw := wsum_set VqPc.busy (VqPc.trying v) hpc
    refine ⟨h1, h2, ?_, ?_, ?_⟩
    · intro j hj
      obtain ⟨⟨u, hu⟩, hlt⟩ := h3 j hj
      refine ⟨⟨u, ?_⟩, hlt⟩
      have : j ≠ i := by rintro rfl; rw [hpc] at hu; cases hu
      simp only [List.getElem?_set_ne (Ne.symm this)]
      exact hu
    · intro j u hj
      rcases set_get_cases hj with ⟨_, hc⟩ | ⟨_, hc⟩
      · cases hc
      · exact h4 j u hc
    · intro j u hj
      rcases set_get_cases hj with ⟨_, hc⟩ | ⟨_, hc⟩
      · cases hc
      · have := h5 j u hc
        simp only [VqPc.busy] at hw
        dsimp only
        omega
  | check i giveUp =>
    simp only [vqStep] at hs
    split at hs <;> first | cases hs | skip
    rename_i v hpc hlock
    split at hs
    · rename_i hfull
      cases hs
      refine ⟨h1, h2, ?_, ?_, ?_⟩
      · intro j hj
        dsimp only at hj
        rw [hlock] at hj
        cases hj
      · intro j u hj
        rcases set_get_cases hj with ⟨_, hc⟩ | ⟨_, hc⟩
        · split at hc <;> cases hc
        · exact h4 j u hc
      · intro j u hj
        dsimp only
        omega
    · rename_i hfull
      cases hs
      have hw := wsum_set VqPc.busy (VqPc.ready v) hpc
      refine ⟨h1, h2, ?_, ?_, ?_⟩
      · intro j hj
        injection hj with hj
        subst hj
        refine ⟨⟨v, ?_⟩, by dsimp only; omega⟩
        dsimp only
        rw [List.getElem?_set_self (List.getElem?_eq_some_iff.1 hpc).1]
      · intro j u hj
        rcases set_get_cases hj with ⟨rfl, hc⟩ | ⟨_, hc⟩
        · rfl
        · have := h4 j u hc
          rw [hlock] at this
          cases this
      · intro j u hj
        rcases set_get_cases hj with ⟨_, hc⟩ | ⟨_, hc⟩
        · cases hc
        · have := h5 j u hc
          simp only [VqPc.busy] at hw
          dsimp only
          omega
  | append i =>
    simp only [vqStep] at hs
    split at hs <;> first | cases hs | skip
    rename_i v hpc
    split at hs <;> first | cases hs | skip
    rename_i hlock
    obtain ⟨_, hlt⟩ := h3 i hlock
    have hw := wsum_set VqPc.busy VqPc.idle hpc
    refine ⟨by dsimp only; rw [h1, List.append_assoc], ?_, ?_, ?_, ?_⟩
    · dsimp only
      rw [List.length_append, List.length_singleton]
      omega
    · intro j hj
      cases hj
    · intro j u hj
      rcases set_get_cases hj with ⟨_, hc⟩ | ⟨hne, hc⟩
      · cases hc
      · have := h4 j u hc
        rw [hlock] at this
        injection this with this
        exact absurd this.symm hne
    · intro j u hj
      rcases set_get_cases hj with ⟨_, hc⟩ | ⟨_, hc⟩
      · cases hc
      · have := h5 j u hc
        simp only [VqPc.busy] at hw
        dsimp only
        rw [List.length_append, List.length_singleton]
        omega
  | timeout i =>
    simp only [vqStep] at hs
    split at hs <;> first | cases hs | skip
    rename_i v hpc
    have hw := wsum_set VqPc.busy (VqPc.trying v) hpc
    refine ⟨h1, h2, ?_, ?_, ?_⟩
    · intro j hj
      obtain ⟨⟨u, hu⟩, hlt⟩ := h3 j hj
      refine ⟨⟨u, ?_⟩, hlt⟩
      have : j ≠ i := by rintro rfl; rw [hpc] at hu; cases hu
      simp only [List.getElem?_set_ne (Ne.symm this)]
      exact hu
    · intro j u hj
      rcases set_get_cases hj with ⟨_, hc⟩ | ⟨_, hc⟩
      · cases hc
      · exact h4 j u hc
    · intro j u hj
      have := h5 i v hpc
      simp only [VqPc.busy] at hw
      dsimp only
      omega
  | take i =>
    simp only [vqStep] at hs
    split at hs <;> first | cases hs | skip
    rename_i v rest hpc hit
    have hw := wsum_set VqPc.busy VqPc.got hpc
    rw [hit, List.length_cons] at h2 h5
    refine ⟨by dsimp only; rw [h1, hit, List.append_assoc]; rfl, by dsimp only; omega, ?_, ?_, ?_⟩
    · intro j hj
      obtain ⟨⟨u, hu⟩, hlt⟩ := h3 j hj
      rw [hit, List.length_cons] at hlt
      refine ⟨⟨u, ?_⟩, by dsimp only; omega⟩
      have : j ≠ i := by rintro rfl; rw [hpc] at hu; cases hu
      simp only [List.getElem?_set_ne (Ne.symm this)]
      exact hu
    · intro j u hj
      rcases set_get_cases hj with ⟨_, hc⟩ | ⟨_, hc⟩
      · cases hc
      · exact h4 j u hc
    · intro j u hj
      rcases set_get_cases hj with ⟨_, hc⟩ | ⟨_, hc⟩
      · cases hc
      · have := h5 j u hc
        simp only [VqPc.busy] at hw
        dsimp only
        omega
  | notify i woken =>
    simp only [vqStep] at hs
    split at hs <;> first | cases hs | skip
    rename_i hpc hlock
    split at hs
    · split at hs <;> first | cases hs | skip
      rename_i hno
      refine ⟨h1, h2, ?_, ?_, ?_⟩
      · intro j hj
        dsimp only at hj
        rw [hlock] at hj
        cases hj
      · intro j u hj
        rcases set_get_cases hj with ⟨_, hc⟩ | ⟨_, hc⟩
        · cases hc
        · exact h4 j u hc
      · intro j u hj
        rcases set_get_cases hj with ⟨_, hc⟩ | ⟨_, hc⟩
        · cases hc
        · exact absurd (List.any_eq_true.2 ⟨_, List.mem_of_getElem? hc, rfl⟩) hno
    · rename_i j
      split at hs <;> first | cases hs | skip
      rename_i v hj
      have hji : j ≠ i := by rintro rfl; rw [hpc] at hj; cases hj
      have hw := wsum_set VqPc.busy VqPc.idle hpc
      have hj' : (s.pcs.set i .idle)[j]? = some (.waiting v) := by rw [List.getElem?_set_ne (Ne.symm hji)]; exact hj
      have hw' := wsum_set VqPc.busy (VqPc.trying v) hj'
      refine ⟨h1, h2, ?_, ?_, ?_⟩
      · intro k hk
        dsimp only at hk
        rw [hlock] at hk
        cases hk
      · intro k u hk
        rcases set_get_cases hk with ⟨_, hc⟩ | ⟨_, hc⟩
        · cases hc
        · rcases set_get_cases hc with ⟨_, hc⟩ | ⟨_, hc⟩
          · cases hc
          · exact h4 k u hc
      · intro k u hk
        have := h5 j v hj
        simp only [VqPc.busy] at hw hw'
        dsimp only
        omega
  | setLimit n =>
    simp only [vqStep] at hs
    split at hs <;> first | cases hs | skip
    rename_i hlock
    have hget : ∀ (j : Nat) (pc : VqPc α), (s.pcs.map VqPc.wake)[j]? = some pc → ∃ pc0, s.pcs[j]? = some pc0 ∧ pc = pc0.wake := by
      intro j pc hj
      rw [List.getElem?_map] at hj
      obtain ⟨pc0, e1, e2⟩ := Option.map_eq_some_iff.1 hj
      exact ⟨pc0, e1, e2.symm⟩
    refine ⟨h1, by dsimp only; omega, ?_, ?_, ?_⟩
    · intro j hj
      dsimp only at hj
      rw [hlock] at hj
      cases hj
    · intro j u hj
      obtain ⟨pc0, e1, e2⟩ := hget j _ hj
      cases pc0 <;> simp only [VqPc.wake] at e2 <;> cases e2
      exact h4 j u e1
    · intro j u hj
      obtain ⟨pc0, e1, e2⟩ := hget j _ hj
      cases pc0 <;> simp only [VqPc.wake] at e2 <;> cases e2

theorem vqRun_inv : ∀ (as : List (VqStep α)) {s s' : VqState α}, VqInv s → vqRun s as = some s' → VqInv s'
  | [], s, s', h, hr => by cases hr; exact h
  | a :: as, s, s', h, hr => by
    rw [vqRun] at hr
    obtain ⟨s1, e1, e2⟩ := Option.bind_eq_some_iff.1 hr
    exact vqRun_inv as (vqStep_inv h e1) e2

/-- A step of a thread that is in the middle of an operation. -/
def VqStep.internal : VqStep α → Bool
  | .check _ _ => true
  | .append _ => true
  | .notify _ _ => true
  | _ => false

theorem vqStep_work {s s' : VqState α} {a : VqStep α} (ha : a.internal = true) (hs : vqStep s a = some s') :
    wsum VqPc.work s'.pcs < wsum VqPc.work s.pcs := by
  cases a with
  | put i v => cases ha
  | timeout i => cases ha
  | take i => cases ha
  | setLimit n => cases ha
  | check i giveUp =>
    simp only [vqStep] at hs
    split at hs <;> first | cases hs | skip
    rename_i v hpc hlock
    split at hs
    · cases hs
      have hw := wsum_set VqPc.work (if giveUp then VqPc.idle else VqPc.waiting v) hpc
      have : VqPc.work (if giveUp then VqPc.idle else VqPc.waiting v) ≤ 1 := by cases giveUp <;> simp [VqPc.work]
      simp only [VqPc.work] at hw this
      dsimp only
      omega
    · cases hs
      have hw := wsum_set VqPc.work (VqPc.ready v) hpc
      simp only [VqPc.work] at hw
      dsimp only
      omega
  | append i =>
    simp only [vqStep] at hs
    split at hs <;> first | cases hs | skip
    rename_i v hpc
    split at hs <;> first | cases hs | skip
    have hw := wsum_set VqPc.work VqPc.idle hpc
    simp only [VqPc.work] at hw
    dsimp only
    omega
  | notify i woken =>
    simp only [vqStep] at hs
    split at hs <;> first | cases hs | skip
    rename_i hpc hlock
    have hw := wsum_set VqPc.work VqPc.idle hpc
    split at hs
    · split at hs <;> first | cases hs | skip
      simp only [VqPc.work] at hw
      dsimp only
      omega
    · rename_i j
      split at hs <;> first | cases hs | skip
      rename_i v hj
      have hji : j ≠ i := by rintro rfl; rw [hpc] at hj; cases hj
      have hj' : (s.pcs.set i .idle)[j]? = some (.waiting v) := by rw [List.getElem?_set_ne (Ne.symm hji)]; exact hj
      have hw' := wsum_set VqPc.work (VqPc.trying v) hj'
      simp only [VqPc.work] at hw hw'
      dsimp only
      omega

theorem vq_can_step {s : VqState α} (h : VqInv s) (hb : 0 < wsum VqPc.busy s.pcs) :
    ∃ a s', a.internal = true ∧ vqStep s a = some s' := by
  cases hl : s.lock with
  | some i =>
    obtain ⟨⟨v, hv⟩, _⟩ := h.held i hl
    exact ⟨.append i, _, rfl, by simp only [vqStep, hv, hl, if_true]; rfl⟩
  | none =>
    obtain ⟨i, pc, hpc, hpos⟩ := wsum_pos _ hb
    cases pc with
    | idle => simp [VqPc.busy] at hpos
    | waiting v => simp [VqPc.busy] at hpos
    | ready v =>
      have := h.ready i v hpc
      rw [hl] at this
      cases this
    | trying v =>
      by_cases hf : s.items.length ≥ s.limit
      · exact ⟨.check i false, _, rfl, by simp only [vqStep, hpc, hl, if_pos hf]; rfl⟩
      · exact ⟨.check i false, _, rfl, by simp only [vqStep, hpc, hl, if_neg hf]; rfl⟩
    | got =>
      by_cases hw : s.pcs.any VqPc.isWaiting = true
      · obtain ⟨pc, hm, hp⟩ := List.any_eq_true.1 hw
        obtain ⟨j, hj⟩ := List.mem_iff_getElem?.1 hm
        cases pc with
        | waiting v => exact ⟨.notify i (some j), _, rfl, by simp only [vqStep, hpc, hl, hj]; rfl⟩
        | _ => cases hp
      · exact ⟨.notify i none, _, rfl, by simp only [vqStep, hpc, hl, if_neg hw]; rfl⟩

/-! ### VariableSizeMultiprocessingQueue -/

def MqPc.busy : MqPc α → Nat
  | .idle => 0
  | _ => 1

theorem used_eq (s : MqState α) : s.used = wsum MqPc.busy s.pcs + wsum List.length s.bufs + s.pipe.length := by
  have : ∀ l : List (MqPc α), (l.filter (fun pc => !pc.isIdle)).length = wsum MqPc.busy l := by
    intro l
    induction l with
    | nil => rfl
    | cons pc l ih =>
      have hw : wsum MqPc.busy (pc :: l) = MqPc.busy pc + wsum MqPc.busy l := by simp [wsum]
      rw [hw, ← ih]
      cases pc <;> simp [MqPc.isIdle, MqPc.busy, Nat.add_comm]
  unfold MqState.used
  rw [this]
  rfl


theorem fromProc_append (p : Nat) (a b : List (Nat × α)) : fromProc p (a ++ b) = fromProc p a ++ fromProc p b := by simp [fromProc]

structure MqInv (s : MqState α) : Prop where
  count : s.sem + s.used = s.limit + s.pending
  fifo : ∀ p b, s.bufs[p]? = some b → fromProc p s.put = fromProc p s.taken ++ fromProc p s.pipe ++ b
  order : ∀ k, s.resizing = some k → k ≤ s.pending

theorem mqInit_inv (limit procs threads : Nat) : MqInv (mqInit limit procs threads : MqState α) := by
  refine ⟨?_, ?_, (fun k h => by cases h)⟩
  · rw [used_eq]
    have h1 : wsum MqPc.busy (List.replicate threads (MqPc.idle : MqPc α)) = 0 := by simp [wsum, MqPc.busy]
    have h2 : wsum List.length (List.replicate procs ([] : List α)) = 0 := by simp [wsum]
    simp only [mqInit, h1, h2, List.length_nil]
  · intro p b hb
    have : b = [] := List.eq_of_mem_replicate (List.mem_of_getElem? hb)
    subst this
    rfl

theorem mqStep_inv {proc : Nat → Nat} {s s' : MqState α} {a : MqStep α} (h : MqInv s) (hs : mqStep proc s a = some s') : MqInv s' := by
  obtain ⟨h0, h2, h3⟩ := h
  have h1 := h0
  rw [used_eq] at h1
  cases a with
  | acquire i v =>
    simp only [mqStep] at hs
    split at hs <;> first | cases hs | skip
    rename_i hpc
    split at hs <;> first | cases hs | skip
    have hw := wsum_set MqPc.busy (MqPc.held v) hpc
    simp only [MqPc.busy] at hw
    refine ⟨?_, h2, h3⟩
    rw [used_eq]
    dsimp only
    omega
  | enqueue i =>
    simp only [mqStep] at hs
    split at hs <;> first | cases hs | skip
    rename_i v b hpc hbuf
    have hw := wsum_set MqPc.busy MqPc.idle hpc
    have hb := wsum_set List.length (b ++ [v]) hbuf
    simp only [MqPc.busy, List.length_append, List.length_singleton] at hw hb
    refine ⟨?_, ?_, h3⟩
    · rw [used_eq]
      dsimp only
      omega
    · intro p b' hb'
      dsimp only at hb' ⊢
      rw [fromProc_append]
      rcases set_get_cases hb' with ⟨rfl, rfl⟩ | ⟨hne, hb'⟩
      · rw [h2 _ _ hbuf]
        simp [fromProc]
      · rw [h2 p b' hb']
        simp [fromProc, Ne.symm hne]
  | feed p =>
    simp only [mqStep] at hs
    split at hs <;> first | cases hs | skip
    rename_i v b hbuf
    have hb := wsum_set List.length b hbuf
    simp only [List.length_cons] at hb
    refine ⟨?_, ?_, h3⟩
    · rw [used_eq]
      dsimp only
      rw [List.length_append, List.length_singleton]
      omega
    · intro q b' hb'
      dsimp only at hb' ⊢
      rw [fromProc_append]
      rcases set_get_cases hb' with ⟨rfl, rfl⟩ | ⟨hne, hb'⟩
      · rw [h2 _ _ hbuf]
        simp [fromProc]
      · rw [h2 q b' hb']
        simp [fromProc, Ne.symm hne]
  | recv i =>
    simp only [mqStep] at hs
    split at hs <;> first | cases hs | skip
    rename_i v rest hpc hp
    have hw := wsum_set MqPc.busy MqPc.got hpc
    simp only [MqPc.busy] at hw
    rw [hp, List.length_cons] at h1
    refine ⟨?_, ?_, h3⟩
    · rw [used_eq]
      dsimp only
      omega
    · intro q b hb
      dsimp only at hb ⊢
      rw [h2 q b hb, hp, fromProc_append, show v :: rest = [v] ++ rest from rfl, fromProc_append, ← List.append_assoc]
  | release i =>
    simp only [mqStep] at hs
    split at hs <;> first | cases hs | skip
    rename_i hpc hr
    have hw := wsum_set MqPc.busy MqPc.idle hpc
    simp only [MqPc.busy] at hw
    split at hs <;> cases hs
    · refine ⟨?_, h2, ?_⟩
      · rw [used_eq]
        dsimp only
        omega
      · intro k hk
        dsimp only at hk
        rw [hr] at hk
        cases hk
    · refine ⟨?_, h2, h3⟩
      rw [used_eq]
      dsimp only
      omega
  | setLimit n =>
    simp only [mqStep] at hs
    split at hs <;> first | cases hs | skip
    rename_i hr
    split at hs
    · cases hs
      refine ⟨?_, h2, h3⟩
      change s.sem + (n - s.limit) + s.used = n + s.pending
      omega
    · split at hs <;> cases hs
      · refine ⟨?_, h2, ?_⟩
        · rw [used_eq]
          dsimp only
          omega
        · intro k hk
          injection hk with hk
          subst hk
          dsimp only
          omega
      · refine ⟨?_, h2, h3⟩
        exact h0
  | shrink =>
    simp only [mqStep] at hs
    split at hs <;> first | cases hs | skip
    · refine ⟨?_, h2, (fun k hk => by cases hk)⟩
      exact h0
    · rename_i k hr
      have hk := h3 _ hr
      split at hs <;> cases hs
      · refine ⟨?_, h2, ?_⟩
        · rw [used_eq]
          dsimp only
          omega
        · intro j hj
          injection hj with hj
          subst hj
          dsimp only
          omega
      · refine ⟨?_, h2, (fun k hk => by cases hk)⟩
        exact h0

theorem mqRun_inv {proc : Nat → Nat} : ∀ (as : List (MqStep α)) {s s' : MqState α}, MqInv s → mqRun proc s as = some s' → MqInv s'
  | [], s, s', h, hr => by cases hr; exact h
  | a :: as, s, s', h, hr => by
    rw [mqRun] at hr
    obtain ⟨s1, e1, e2⟩ := Option.bind_eq_some_iff.1 hr
    exact mqRun_inv as (mqStep_inv h e1) e2

/-- While the limit is not raised too early. -/
structure MqBound (s : MqState α) : Prop where
  idle : s.resizing = none → s.pending = 0 ∨ (s.sem = 0 ∧ s.used ≤ s.atSet)
  resizing : ∀ k, s.resizing = some k → s.pending = k ∨ s.sem = 0

theorem mqStep_bound {proc : Nat → Nat} {s s' : MqState α} {a : MqStep α} (h : MqBound s)
    (hg : ∀ n, a = .setLimit n → s.limit < n → s.pending = 0) (hs : mqStep proc s a = some s') : MqBound s' := by
  obtain ⟨h1, h2⟩ := h
  rw [used_eq] at h1
  cases a with
  | acquire i v =>
    simp only [mqStep] at hs
    split at hs <;> first | cases hs | skip
    split at hs <;> first | cases hs | skip
    refine ⟨?_, ?_⟩
    · intro hr
      rcases h1 hr with h | h
      · exact Or.inl h
      · omega
    · intro k hk
      rcases h2 k hk with h | h
      · exact Or.inl h
      · omega
  | enqueue i =>
    simp only [mqStep] at hs
    split at hs <;> first | cases hs | skip
    rename_i v b hpc hbuf
    have hw := wsum_set MqPc.busy MqPc.idle hpc
    have hb := wsum_set List.length (b ++ [v]) hbuf
    simp only [MqPc.busy, List.length_append, List.length_singleton] at hw hb
    refine ⟨?_, h2⟩
    intro hr
    rw [used_eq]
    rcases h1 hr with h | ⟨h, h'⟩
    · exact Or.inl h
    · refine Or.inr ⟨h, ?_⟩
      dsimp only
      omega
  | feed p =>
    simp only [mqStep] at hs
    split at hs <;> first | cases hs | skip
    rename_i v b hbuf
    have hb := wsum_set List.length b hbuf
    simp only [List.length_cons] at hb
    refine ⟨?_, h2⟩
    intro hr
    rw [used_eq]
    rcases h1 hr with h | ⟨h, h'⟩
    · exact Or.inl h
    · refine Or.inr ⟨h, ?_⟩
      dsimp only
      rw [List.length_append, List.length_singleton]
      omega
  | recv i =>
    simp only [mqStep] at hs
    split at hs <;> first | cases hs | skip
    rename_i v rest hpc hp
    have hw := wsum_set MqPc.busy MqPc.got hpc
    simp only [MqPc.busy] at hw
    rw [hp, List.length_cons] at h1
    refine ⟨?_, h2⟩
    intro hr
    rw [used_eq]
    rcases h1 hr with h | ⟨h, h'⟩
    · exact Or.inl h
    · refine Or.inr ⟨h, ?_⟩
      dsimp only
      omega
  | release i =>
    simp only [mqStep] at hs
    split at hs <;> first | cases hs | skip
    rename_i hpc hr0
    have hw := wsum_set MqPc.busy MqPc.idle hpc
    simp only [MqPc.busy] at hw
    split at hs <;> cases hs
    · refine ⟨?_, ?_⟩
      · intro hr
        rw [used_eq]
        rcases h1 hr with h | ⟨h, h'⟩
        · omega
        · refine Or.inr ⟨h, ?_⟩
          dsimp only
          omega
      · intro k hk
        dsimp only at hk
        rw [hr0] at hk
        cases hk
    · refine ⟨?_, ?_⟩
      · intro hr
        exact Or.inl (by dsimp only; omega)
      · intro k hk
        dsimp only at hk
        rw [hr0] at hk
        cases hk
  | setLimit n =>
    simp only [mqStep] at hs
    split at hs <;> first | cases hs | skip
    rename_i hr0
    split at hs
    · rename_i hgt
      cases hs
      refine ⟨fun _ => Or.inl (hg n rfl hgt), ?_⟩
      intro k hk
      dsimp only at hk
      rw [hr0] at hk
      cases hk
    · split at hs <;> cases hs
      · refine ⟨(fun hr => by cases hr), ?_⟩
        intro k hk
        injection hk with hk
        subst hk
        rcases h1 hr0 with h | ⟨h, _⟩
        · exact Or.inl (by dsimp only; omega)
        · exact Or.inr h
      · refine ⟨?_, ?_⟩
        · intro _
          rcases h1 hr0 with h | ⟨h, _⟩
          · exact Or.inl h
          · exact Or.inr ⟨h, Nat.le_refl _⟩
        · intro k hk
          dsimp only at hk
          rw [hr0] at hk
          cases hk
  | shrink =>
    simp only [mqStep] at hs
    split at hs <;> first | cases hs | skip
    · rename_i hr0
      refine ⟨?_, (fun k hk => by cases hk)⟩
      intro _
      rcases h2 0 hr0 with h | h
      · exact Or.inl h
      · exact Or.inr ⟨h, Nat.le_refl _⟩
    · rename_i k hr0
      split at hs <;> cases hs
      · refine ⟨(fun hr => by cases hr), ?_⟩
        intro j hj
        injection hj with hj
        subst hj
        rcases h2 _ hr0 with h | h
        · exact Or.inl (by dsimp only; omega)
        · omega
      · exact ⟨fun _ => Or.inr ⟨by dsimp only; omega, Nat.le_refl _⟩, (fun k hk => by cases hk)⟩

end Grain
