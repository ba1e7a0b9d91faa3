import Verif.Parallel.Model
import Mathlib.Data.List.Nodup
import Mathlib.Data.List.Perm.Subperm
/-
The invariant of `run_in_parallel`.
-/
namespace Grain

/-- The promise about the result: all calls succeeded and these are their values in order, or the exception of some call. -/
def ParJob.Result (j : ParJob β) : Except Err (List β) → Prop
  | .ok vs => vs.length = j.n ∧ ∀ i, i < j.n → (vs[i]?).map Except.ok = some (j.call i)
  | .error e => ∃ i, i < j.n ∧ j.call i = .error e

/-- Invariant of all reachable states (with at least one thread). -/
structure ParInv (j : ParJob β) (s : ParState β) : Prop where
  len : s.futs.length ≤ j.n
  done : ∀ (i : Nat) (r : Except Err β), s.futs[i]? = some (.done r) → r = j.call i
  bound : s.running ≤ j.workers
  started : ∃ k, s.started = (List.range k).reverse ∧ k ≤ s.futs.length ∧
    (∀ i, i < k → s.futs[i]? = some .running ∨ ∃ r, s.futs[i]? = some (.done r)) ∧
    (∀ i f, k ≤ i → s.futs[i]? = some f → f = .pending ∨ f = .cancelled)
  main : match s.main with
    | .submitting => ∀ f ∈ s.futs, f ≠ .cancelled
    | .collecting taken => s.futs.length = j.n ∧ (∀ f ∈ s.futs, f ≠ .cancelled) ∧ taken.Nodup ∧
        ∀ i ∈ taken, ∃ r, s.futs[i]? = some (.done r)
    | .raising e => s.futs.length = j.n ∧ (∀ f ∈ s.futs, f ≠ .pending) ∧ j.Result (.error e)
    | .finished r => s.futs.length = j.n ∧ (∀ f ∈ s.futs, f ≠ .pending) ∧ s.running = 0 ∧ j.Result r ∧
        ∀ vs, r = .ok vs → s.started.length = j.n

theorem firstPending_some {fs : List (Fut β)} {i : Nat} (h : firstPending fs = some i) :
    fs[i]? = some .pending ∧ ∀ k, k < i → fs[k]? ≠ some .pending := by
  induction fs generalizing i with
  | nil => cases h
  | cons f fs ih =>
    have hcons : ∀ (g : Fut β), (g = .pending → False) → (firstPending fs).map (· + 1) = some i → f = g →
        (f :: fs)[i]? = some .pending ∧ ∀ k, k < i → (f :: fs)[k]? ≠ some .pending := by
      intro g hg hm hf
      obtain ⟨m, hm1, rfl⟩ := Option.map_eq_some_iff.1 hm
      obtain ⟨h1, h2⟩ := ih hm1
      refine ⟨h1, ?_⟩
      intro k hk
      cases k with
      | zero => subst hf; intro hh; exact hg (Option.some.inj hh)
      | succ k => exact h2 k (by omega)
    cases f with
    | pending =>
      simp only [firstPending] at h
      cases h
      exact ⟨rfl, fun k hk => by omega⟩
    | running => exact hcons .running (by intro h; cases h) h rfl
    | done r => exact hcons (.done r) (by intro h; cases h) h rfl
    | cancelled => exact hcons .cancelled (by intro h; cases h) h rfl

theorem firstPending_none {fs : List (Fut β)} (h : firstPending fs = none) : ∀ f ∈ fs, f ≠ .pending := by
  induction fs with
  | nil => intro f hf; cases hf
  | cons f fs ih =>
    have hrest : (firstPending fs).map (· + 1) = none → (f = .pending → False) → ∀ g ∈ f :: fs, g ≠ .pending := by
      intro hm hf g hg
      rcases List.mem_cons.1 hg with rfl | hg
      · exact hf
      · exact ih (Option.map_eq_none_iff.1 hm) g hg
    cases f with
    | pending => cases h
    | running => exact hrest h (by intro h; cases h)
    | done r => exact hrest h (by intro h; cases h)
    | cancelled => exact hrest h (by intro h; cases h)

/-- Number of running calls, over the list. -/
def runningIn (fs : List (Fut β)) : Nat := (fs.filter (fun f => match f with | .running => true | _ => false)).length

theorem running_eq (s : ParState β) : s.running = runningIn s.futs := rfl

theorem runningIn_set_running {fs : List (Fut β)} {i : Nat} (h : fs[i]? = some .pending) :
    runningIn (fs.set i .running) = runningIn fs + 1 := by
  induction fs generalizing i with
  | nil => cases h
  | cons f fs ih =>
    cases i with
    | zero =>
      cases h
      simp [runningIn]
    | succ i =>
      have := ih (i := i) (by simpa using h)
      simp only [runningIn] at this ⊢
      rw [List.set_cons_succ, List.filter_cons, List.filter_cons]
      cases f <;> simp [this]

theorem runningIn_set_done {fs : List (Fut β)} {i : Nat} {r : Except Err β} (h : fs[i]? = some .running) :
    runningIn (fs.set i (.done r)) + 1 = runningIn fs := by
  induction fs generalizing i with
  | nil => cases h
  | cons f fs ih =>
    cases i with
    | zero =>
      cases h
      simp [runningIn]
    | succ i =>
      have := ih (i := i) (by simpa using h)
      simp only [runningIn] at this ⊢
      rw [List.set_cons_succ, List.filter_cons, List.filter_cons]
      cases f <;> simp [this]

theorem runningIn_cancel (fs : List (Fut β)) : runningIn (fs.map Fut.cancel) = runningIn fs := by
  induction fs with
  | nil => rfl
  | cons f fs ih =>
    simp only [runningIn] at ih ⊢
    rw [List.map_cons, List.filter_cons, List.filter_cons]
    cases f <;> simp [Fut.cancel, ih]

theorem runningIn_append (fs : List (Fut β)) : runningIn (fs ++ [.pending]) = runningIn fs := by
  simp [runningIn, List.filter_append]

theorem runningIn_zero {fs : List (Fut β)} (h : runningIn fs = 0) : ∀ f ∈ fs, f ≠ .running := by
  intro f hf hr
  subst hr
  have : Fut.running ∈ fs.filter (fun f => match f with | .running => true | _ => false) := List.mem_filter.2 ⟨hf, rfl⟩
  have := List.length_pos_of_mem this
  unfold runningIn at h
  omega

theorem runningIn_pos {fs : List (Fut β)} (h : 0 < runningIn fs) : ∃ i : Nat, fs[i]? = some Fut.running := by
  obtain ⟨f, hf⟩ := List.exists_mem_of_length_pos h
  obtain ⟨h1, h2⟩ := List.mem_filter.1 hf
  obtain ⟨i, hi, rfl⟩ := List.getElem_of_mem h1
  refine ⟨i, ?_⟩
  rw [List.getElem?_eq_getElem hi]
  cases hh : fs[i] with
  | running => rfl
  | pending => rw [hh] at h2; cases h2
  | done r => rw [hh] at h2; cases h2
  | cancelled => rw [hh] at h2; cases h2

/-- All completed: what line 72 gives. -/
theorem results_all_done (j : ParJob β) : ∀ (fs : List (Fut β)) (o : Nat),
    (∀ i, i < fs.length → fs[i]? = some (.done (j.call (o + i)))) →
    (∃ vs, fs.mapM Fut.result = .ok vs ∧ vs.length = fs.length ∧
        ∀ i, i < fs.length → (vs[i]?).map Except.ok = some (j.call (o + i))) ∨
      ∃ i e, i < fs.length ∧ fs.mapM Fut.result = .error e ∧ j.call (o + i) = .error e := by
  intro fs
  induction fs with
  | nil => intro o _; exact .inl ⟨[], rfl, rfl, fun i hi => by cases hi⟩
  | cons f fs ih =>
    intro o h
    have h0 := h 0 (by simp)
    have hf : f = .done (j.call o) := by simpa using h0
    have hrest := ih (o + 1) (fun i hi => by
      have := h (i + 1) (by simpa using hi)
      rw [List.getElem?_cons_succ] at this
      rw [this]; congr 3; omega)
    cases hc : j.call o with
    | error e =>
      refine .inr ⟨0, e, by simp, ?_, by simpa using hc⟩
      rw [List.mapM_cons, hf, hc]; rfl
    | ok v =>
      rcases hrest with ⟨vs, h1, h2, h3⟩ | ⟨i, e, h1, h2, h3⟩
      · refine .inl ⟨v :: vs, ?_, by simp [h2], ?_⟩
        · rw [List.mapM_cons, hf, hc, h1]; rfl
        · intro i hi
          cases i with
          | zero => simp [hc]
          | succ i =>
            rw [List.getElem?_cons_succ, h3 i (by simpa using hi)]
            congr 2; omega
      · refine .inr ⟨i + 1, e, by simpa using h1, ?_, ?_⟩
        · rw [List.mapM_cons, hf, hc, h2]; rfl
        · rw [← h3]; congr 1; omega

theorem all_taken {taken : List Nat} {n : Nat} (hn : taken.Nodup) (hlt : ∀ i ∈ taken, i < n) (hl : taken.length = n) :
    ∀ i, i < n → i ∈ taken := by
  have hsub : taken ⊆ List.range n := fun i hi => List.mem_range.2 (hlt i hi)
  have hp := (List.subperm_of_subset hn hsub).perm_of_length_le (by simp [hl])
  intro i hi
  exact hp.mem_iff.2 (List.mem_range.2 hi)

theorem par_init_inv (j : ParJob β) (hw : 1 ≤ j.workers) : ParInv j j.init := by
  unfold ParJob.init
  rw [if_neg (by omega)]
  refine ⟨by simp, fun i r h => by simp at h, by simp [ParState.running], ⟨0, rfl, by simp, fun i h => by omega, ?_⟩, ?_⟩
  · intro i f _ h; simp at h
  · intro f hf; cases hf

theorem par_submit_inv {j : ParJob β} {s s' : ParState β} (hi : ParInv j s) (h : j.step s .submit = some s') : ParInv j s' := by
  obtain ⟨futs, main, started⟩ := s
  obtain ⟨hlen, hdone, hbound, ⟨k, hk1, hk2, hk3, hk4⟩, hmain⟩ := hi
  cases main with
  | submitting =>
    simp only [ParJob.step] at h
    split at h
    · rename_i hlt
      cases h
      refine ⟨by simp; omega, ?_, ?_, ⟨k, hk1, by simp at hk2 ⊢; omega, ?_, ?_⟩, ?_⟩
      · intro i r hr
        rcases Nat.lt_or_ge i futs.length with hl | hl
        · exact hdone i r (by rw [List.getElem?_append_left hl] at hr; exact hr)
        · rw [List.getElem?_append_right hl] at hr
          cases hd : i - futs.length with
          | zero => rw [hd] at hr; cases hr
          | succ m => rw [hd] at hr; cases hr
      · rw [running_eq]; simp only [runningIn_append]; exact hbound
      · intro i hlt'
        have := hk3 i hlt'
        have hl : i < futs.length := by simp at hk2; omega
        simp only [List.getElem?_append_left hl]; exact this
      · intro i f hki hf
        rcases Nat.lt_or_ge i futs.length with hl | hl
        · exact hk4 i f hki (by rw [List.getElem?_append_left hl] at hf; exact hf)
        · rw [List.getElem?_append_right hl] at hf
          cases hd : i - futs.length with
          | zero => rw [hd] at hf; cases hf; exact .inl rfl
          | succ m => rw [hd] at hf; cases hf
      · intro f hf
        rcases List.mem_append.1 hf with hf | hf
        · exact hmain f hf
        · rw [List.mem_singleton.1 hf]; intro hc; cases hc
    · rename_i hge
      cases h
      exact ⟨hlen, hdone, hbound, ⟨k, hk1, hk2, hk3, hk4⟩,
        (by simp only at hlen hge ⊢; omega), hmain, List.nodup_nil, fun i hi => by cases hi⟩
  | collecting t => cases h
  | raising e => cases h
  | finished r => cases h

theorem par_start_inv {j : ParJob β} {s s' : ParState β} (hi : ParInv j s) (h : j.step s .start = some s') : ParInv j s' := by
  obtain ⟨futs, main, started⟩ := s
  obtain ⟨hlen, hdone, hbound, ⟨k, hk1, hk2, hk3, hk4⟩, hmain⟩ := hi
  simp only [ParJob.step] at h
  split at h
  · rename_i hlt
    cases hp : firstPending futs with
    | none => rw [hp] at h; cases h
    | some i =>
      rw [hp] at h
      cases h
      obtain ⟨hp1, hp2⟩ := firstPending_some hp
      obtain ⟨hil, hpm⟩ := List.getElem?_eq_some_iff.1 hp1
      have hmem : Fut.pending ∈ futs := List.mem_of_getElem? hp1
      have hnc : ∀ f ∈ futs, f ≠ .cancelled := by
        cases main with
        | submitting => exact hmain
        | collecting t => exact hmain.2.1
        | raising e => exact absurd rfl (hmain.2.1 _ hmem)
        | finished r => exact absurd rfl (hmain.2.1 _ hmem)
      have hik : i = k := by
        rcases Nat.lt_trichotomy i k with h1 | h1 | h1
        · rcases hk3 i h1 with h2 | ⟨r, h2⟩
          · simp only at h2; rw [hp1] at h2; cases h2
          · simp only at h2; rw [hp1] at h2; cases h2
        · exact h1
        · have hkl : k < futs.length := by omega
          have hk' := List.getElem?_eq_getElem hkl
          rcases hk4 k _ (Nat.le_refl k) hk' with h2 | h2
          · exact absurd (hk'.trans (congrArg some h2)) (hp2 k h1)
          · exact absurd h2 (hnc _ (List.getElem_mem hkl))
      subst hik
      have hset : ∀ m : Nat, m ≠ i → (futs.set i .running)[m]? = futs[m]? := fun m hm => List.getElem?_set_ne (Ne.symm hm)
      have hself : (futs.set i .running)[i]? = some .running := by
        rw [List.getElem?_set_self hil]
      refine ⟨by simpa using hlen, ?_, ?_, ⟨i + 1, ?_, by simp; omega, ?_, ?_⟩, ?_⟩
      · intro m r hr
        simp only at hr
        by_cases hm : m = i
        · subst hm; rw [hself] at hr; cases hr
        · rw [hset m hm] at hr; exact hdone m r hr
      · rw [running_eq] at hlt ⊢
        simp only [runningIn_set_running hp1] at hlt ⊢
        omega
      · simp only at hk1; simp only [hk1, List.range_succ, List.reverse_append, List.reverse_cons, List.reverse_nil,
          List.nil_append, List.cons_append]
      · intro m hm
        simp only
        by_cases hmi : m = i
        · subst hmi; exact .inl hself
        · rw [hset m hmi]; exact hk3 m (by omega)
      · intro m f hm hf
        simp only at hf
        rw [hset m (by omega)] at hf
        exact hk4 m f (by omega) hf
      · have hmem' : ∀ f ∈ futs.set i .running, f ≠ .cancelled := by
          intro f hf
          rcases List.mem_or_eq_of_mem_set hf with h1 | h1
          · exact hnc f h1
          · rw [h1]; intro hc; cases hc
        cases main with
        | submitting => exact hmem'
        | collecting t =>
          obtain ⟨h1, _, h3, h4⟩ := hmain
          refine ⟨by simpa using h1, hmem', h3, ?_⟩
          intro m hm
          obtain ⟨r, hr⟩ := h4 m hm
          refine ⟨r, ?_⟩
          simp only at hr ⊢
          rw [hset m ?_]
          · exact hr
          · intro he; subst he; rw [hp1] at hr; cases hr
        | raising e => exact absurd rfl (hmain.2.1 _ hmem)
        | finished r => exact absurd rfl (hmain.2.1 _ hmem)
  · cases h

theorem par_finish_inv {j : ParJob β} {s s' : ParState β} {i : Nat} (hi : ParInv j s) (h : j.step s (.finish i) = some s') :
    ParInv j s' := by
  obtain ⟨futs, main, started⟩ := s
  obtain ⟨hlen, hdone, hbound, ⟨k, hk1, hk2, hk3, hk4⟩, hmain⟩ := hi
  simp only [ParJob.step] at h
  split at h
  · rename_i hp1
    cases h
    obtain ⟨hil, hpm⟩ := List.getElem?_eq_some_iff.1 hp1
    have hset : ∀ m : Nat, m ≠ i → (futs.set i (.done (j.call i)))[m]? = futs[m]? :=
      fun m hm => List.getElem?_set_ne (Ne.symm hm)
    have hself : (futs.set i (.done (j.call i)))[i]? = some (.done (j.call i)) := by
      rw [List.getElem?_set_self hil]
    have hik : i < k := by
      by_contra hc
      rcases hk4 i _ (by omega) hp1 with h2 | h2 <;> cases h2
    have hrun := runningIn_set_done (r := j.call i) hp1
    have hmemset : ∀ P : Fut β → Prop, (∀ f ∈ futs, P f) → P (.done (j.call i)) →
        ∀ f ∈ futs.set i (.done (j.call i)), P f := by
      intro P h1 h2 f hf
      rcases List.mem_or_eq_of_mem_set hf with h3 | h3
      · exact h1 f h3
      · rw [h3]; exact h2
    refine ⟨by simpa using hlen, ?_, ?_, ⟨k, hk1, by simpa using hk2, ?_, ?_⟩, ?_⟩
    · intro m r hr
      simp only at hr
      by_cases hm : m = i
      · subst hm; rw [hself] at hr; cases hr; rfl
      · rw [hset m hm] at hr; exact hdone m r hr
    · rw [running_eq] at hbound ⊢
      simp only at hbound ⊢
      omega
    · intro m hm
      simp only
      by_cases hmi : m = i
      · subst hmi; exact .inr ⟨_, hself⟩
      · rw [hset m hmi]; exact hk3 m hm
    · intro m f hm hf
      simp only at hf
      rw [hset m (by omega)] at hf
      exact hk4 m f hm hf
    · cases main with
      | submitting => exact hmemset _ hmain (by intro hc; cases hc)
      | collecting t =>
        obtain ⟨h1, h2, h3, h4⟩ := hmain
        refine ⟨by simpa using h1, hmemset _ h2 (by intro hc; cases hc), h3, ?_⟩
        intro m hm
        obtain ⟨r, hr⟩ := h4 m hm
        refine ⟨r, ?_⟩
        simp only at hr ⊢
        rw [hset m ?_]
        · exact hr
        · intro he; subst he; rw [hp1] at hr; cases hr
      | raising e =>
        obtain ⟨h1, h2, h3⟩ := hmain
        exact ⟨by simpa using h1, hmemset _ h2 (by intro hc; cases hc), h3⟩
      | finished r =>
        obtain ⟨h1, h2, h3, h4⟩ := hmain
        exact absurd rfl (runningIn_zero (by rw [running_eq] at h3; exact h3) _ (List.mem_of_getElem? hp1))
  · cases h

theorem par_take_inv {j : ParJob β} {s s' : ParState β} {i : Nat} (hi : ParInv j s) (h : j.step s (.take i) = some s') :
    ParInv j s' := by
  obtain ⟨futs, main, started⟩ := s
  obtain ⟨hlen, hdone, hbound, ⟨k, hk1, hk2, hk3, hk4⟩, hmain⟩ := hi
  cases main with
  | submitting => cases h
  | raising e => cases h
  | finished r => cases h
  | collecting taken =>
    obtain ⟨h1, h2, h3, h4⟩ := hmain
    simp only at h1 h2 h3 h4 hdone
    cases hf : futs[i]? with
    | none => simp only [ParJob.step, hf] at h; cases h
    | some f =>
      cases f with
      | pending => simp only [ParJob.step, hf] at h; cases h
      | running => simp only [ParJob.step, hf] at h; cases h
      | cancelled => simp only [ParJob.step, hf] at h; cases h
      | done r =>
        simp only [ParJob.step, hf] at h
        split at h
        · cases h
        · rename_i hnt
          have hnext : ParInv j ⟨futs, .collecting (i :: taken), started⟩ :=
            ⟨hlen, hdone, hbound, ⟨k, hk1, hk2, hk3, hk4⟩, h1, h2, List.nodup_cons.2 ⟨hnt, h3⟩, by
              intro m hm
              rcases List.mem_cons.1 hm with rfl | hm
              · exact ⟨r, hf⟩
              · exact h4 m hm⟩
          cases r with
          | ok v => cases h; exact hnext
          | error e =>
            simp only at h
            split at h
            · cases h
              obtain ⟨hil, _⟩ := List.getElem?_eq_some_iff.1 hf
              have hc := hdone i _ hf
              refine ⟨by simpa using hlen, ?_, ?_, ⟨k, hk1, by simpa using hk2, ?_, ?_⟩, by simpa using h1, ?_, i, by omega, hc.symm⟩
              · intro m r hr
                simp only [List.getElem?_map] at hr
                obtain ⟨g, hg, hgc⟩ := Option.map_eq_some_iff.1 hr
                cases g with
                | done r' => cases hgc; exact hdone m r hg
                | pending => cases hgc
                | running => cases hgc
                | cancelled => cases hgc
              · rw [running_eq] at hbound ⊢
                simp only [runningIn_cancel]; exact hbound
              · intro m hm
                simp only [List.getElem?_map]
                rcases hk3 m hm with h5 | ⟨r, h5⟩
                · simp only at h5; rw [h5]; exact .inl rfl
                · simp only at h5; rw [h5]; exact .inr ⟨r, rfl⟩
              · intro m f hm hf'
                simp only [List.getElem?_map] at hf'
                obtain ⟨g, hg, hgc⟩ := Option.map_eq_some_iff.1 hf'
                rcases hk4 m g hm hg with h5 | h5
                · subst h5; cases hgc; exact .inr rfl
                · subst h5; cases hgc; exact .inr rfl
              · intro f hf'
                obtain ⟨g, _, hgc⟩ := List.mem_map.1 hf'
                intro hp
                subst hp
                cases g <;> cases hgc
            · cases h; exact hnext

theorem par_exit_inv {j : ParJob β} {s s' : ParState β} (hi : ParInv j s) (h : j.step s .exit = some s') : ParInv j s' := by
  obtain ⟨futs, main, started⟩ := s
  obtain ⟨hlen, hdone, hbound, ⟨k, hk1, hk2, hk3, hk4⟩, hmain⟩ := hi
  cases main with
  | submitting => cases h
  | finished r => cases h
  | raising e =>
    simp only [ParJob.step] at h
    split at h
    · rename_i hr
      cases h
      exact ⟨hlen, hdone, hbound, ⟨k, hk1, hk2, hk3, hk4⟩, hmain.1, hmain.2.1, hr, hmain.2.2, fun vs hv => by cases hv⟩
    · cases h
  | collecting taken =>
    obtain ⟨h1, h2, h3, h4⟩ := hmain
    simp only at h1 h2 h3 h4 hdone hk1 hk2 hk3 hk4 hlen
    simp only [ParJob.step] at h
    split at h
    · rename_i hr
      obtain ⟨hr1, hr2⟩ := hr
      cases h
      have hall : ∀ i, i < futs.length → futs[i]? = some (.done (j.call i)) := by
        intro i hi
        have hm := all_taken h3 (fun m hm => by
          obtain ⟨r, hr⟩ := h4 m hm
          exact (List.getElem?_eq_some_iff.1 hr).1) hr1 i hi
        obtain ⟨r, hr⟩ := h4 i hm
        rw [hr, hdone i r hr]
      have hkn : k = futs.length := by
        by_contra hc
        have hlt : k < futs.length := by omega
        rcases hk4 k _ (Nat.le_refl k) (hall k hlt) with h5 | h5 <;> cases h5
      refine ⟨hlen, hdone, hbound, ⟨k, hk1, hk2, hk3, hk4⟩, h1, ?_, hr2, ?_, ?_⟩
      · intro f hf hp
        obtain ⟨i, hi, rfl⟩ := List.getElem_of_mem hf
        have := hall i hi
        rw [List.getElem?_eq_getElem hi, hp] at this
        cases this
      · rcases results_all_done j futs 0 (fun i hi => by rw [Nat.zero_add]; exact hall i hi) with
          ⟨vs, h5, h6, h7⟩ | ⟨i, e, h5, h6, h7⟩
        · rw [h5]
          refine ⟨by omega, fun i hi => ?_⟩
          have := h7 i (by omega)
          rw [Nat.zero_add] at this
          exact this
        · rw [h6]
          exact ⟨i, by omega, by rw [Nat.zero_add] at h7; exact h7⟩
      · intro vs _
        simp only [hk1, List.length_reverse, List.length_range]
        omega
    · cases h

theorem par_step_inv {j : ParJob β} {s s' : ParState β} {a : ParAct} (hi : ParInv j s) (h : j.step s a = some s') :
    ParInv j s' := by
  cases a with
  | submit => exact par_submit_inv hi h
  | start => exact par_start_inv hi h
  | finish i => exact par_finish_inv hi h
  | take i => exact par_take_inv hi h
  | exit => exact par_exit_inv hi h

theorem par_run_inv {j : ParJob β} : ∀ {as : List ParAct} {s s' : ParState β}, ParInv j s → j.run s as = some s' → ParInv j s' := by
  intro as
  induction as with
  | nil => intro s s' hi h; cases h; exact hi
  | cons a as ih =>
    intro s s' hi h
    obtain ⟨t, h1, h2⟩ := Option.bind_eq_some_iff.1 h
    exact ih (par_step_inv hi h1) h2

/-- Steps left for a call. -/
def Fut.weight : Fut β → Nat
  | .pending => 2
  | .running => 1
  | _ => 0

/-- Steps left for the calling thread. -/
def ParMain.weight (n : Nat) : ParMain β → Nat
  | .submitting => n + 3
  | .collecting taken => n + 2 - taken.length
  | .raising _ => 1
  | .finished _ => 0

/-- A bound of the steps left. -/
def ParJob.left (j : ParJob β) (s : ParState β) : Nat :=
  3 * (j.n - s.futs.length) + (s.futs.map Fut.weight).sum + s.main.weight j.n

theorem weight_set {fs : List (Fut β)} {i : Nat} {f g : Fut β} (h : fs[i]? = some f) :
    ((fs.set i g).map Fut.weight).sum + f.weight = (fs.map Fut.weight).sum + g.weight := by
  induction fs generalizing i with
  | nil => cases h
  | cons x fs ih =>
    cases i with
    | zero => cases h; simp; omega
    | succ i =>
      have := ih (i := i) (by simpa using h)
      simp only [List.set_cons_succ, List.map_cons, List.sum_cons]
      omega

theorem weight_cancel (fs : List (Fut β)) : ((fs.map Fut.cancel).map Fut.weight).sum ≤ (fs.map Fut.weight).sum := by
  induction fs with
  | nil => exact Nat.le_refl _
  | cons f fs ih =>
    simp only [List.map_cons, List.sum_cons]
    have : f.cancel.weight ≤ f.weight := by cases f <;> simp [Fut.cancel, Fut.weight]
    omega

theorem taken_le {j : ParJob β} {futs : List (Fut β)} {taken started : List Nat}
    (hi : ParInv j ⟨futs, .collecting taken, started⟩) : taken.length ≤ futs.length := by
  obtain ⟨h1, h2, h3, h4⟩ := hi.main
  have hsub : taken ⊆ List.range futs.length := fun m hm => by
    obtain ⟨r, hr⟩ := h4 m hm
    exact List.mem_range.2 (List.getElem?_eq_some_iff.1 hr).1
  have := (List.subperm_of_subset h3 hsub).length_le
  simpa using this

theorem par_step_left {j : ParJob β} {s s' : ParState β} {a : ParAct} (hi : ParInv j s) (h : j.step s a = some s') :
    j.left s' < j.left s := by
  have hi' := par_step_inv hi h
  obtain ⟨futs, main, started⟩ := s
  cases a with
  | submit =>
    cases main with
    | submitting =>
      simp only [ParJob.step] at h
      split at h
      · cases h
        simp only [ParJob.left, List.length_append, List.map_append, List.sum_append, List.map_cons, List.map_nil, List.sum_cons,
          List.sum_nil, Fut.weight, List.length_cons, List.length_nil]
        omega
      · cases h
        simp only [ParJob.left, ParMain.weight, List.length_nil]
        omega
    | collecting t => cases h
    | raising e => cases h
    | finished r => cases h
  | start =>
    simp only [ParJob.step] at h
    split at h
    · cases hp : firstPending futs with
      | none => rw [hp] at h; cases h
      | some i =>
        rw [hp] at h
        cases h
        have := weight_set (g := .running) (firstPending_some hp).1
        simp only [ParJob.left, List.length_set, Fut.weight] at this ⊢
        omega
    · cases h
  | finish i =>
    simp only [ParJob.step] at h
    split at h
    · rename_i hp
      cases h
      have := weight_set (g := .done (j.call i)) hp
      simp only [ParJob.left, List.length_set, Fut.weight] at this ⊢
      omega
    · cases h
  | take i =>
    cases main with
    | submitting => cases h
    | raising e => cases h
    | finished r => cases h
    | collecting taken =>
      have htl := taken_le hi
      have hn := hi.len
      simp only at hn
      cases hf : futs[i]? with
      | none => simp only [ParJob.step, hf] at h; cases h
      | some f =>
        cases f with
        | pending => simp only [ParJob.step, hf] at h; cases h
        | running => simp only [ParJob.step, hf] at h; cases h
        | cancelled => simp only [ParJob.step, hf] at h; cases h
        | done r =>
          simp only [ParJob.step, hf] at h
          split at h
          · cases h
          · have hnext : j.left ⟨futs, .collecting (i :: taken), started⟩ < j.left ⟨futs, .collecting taken, started⟩ := by
              simp only [ParJob.left, ParMain.weight, List.length_cons]
              omega
            cases r with
            | ok v => cases h; exact hnext
            | error e =>
              simp only at h
              split at h
              · cases h
                have := weight_cancel futs
                simp only [ParJob.left, ParMain.weight, List.length_map]
                omega
              · cases h; exact hnext
  | exit =>
    cases main with
    | submitting => cases h
    | finished r => cases h
    | raising e =>
      simp only [ParJob.step] at h
      split at h
      · cases h
        simp only [ParJob.left, ParMain.weight]; omega
      · cases h
    | collecting taken =>
      have htl := taken_le hi
      have hn := hi.len
      simp only at hn
      simp only [ParJob.step] at h
      split at h
      · cases h
        simp only [ParJob.left, ParMain.weight]; omega
      · cases h

theorem par_run_left {j : ParJob β} : ∀ {as : List ParAct} {s s' : ParState β}, ParInv j s → j.run s as = some s' →
    as.length + j.left s' ≤ j.left s := by
  intro as
  induction as with
  | nil => intro s s' hi h; cases h; simp
  | cons a as ih =>
    intro s s' hi h
    obtain ⟨t, h1, h2⟩ := Option.bind_eq_some_iff.1 h
    have := ih (par_step_inv hi h1) h2
    have := par_step_left hi h1
    simp only [List.length_cons]
    omega

theorem par_progress {j : ParJob β} {s : ParState β} (hw : 1 ≤ j.workers) (hi : ParInv j s)
    (hn : ∀ r, s.main ≠ .finished r) : ∃ a s', j.step s a = some s' := by
  obtain ⟨futs, main, started⟩ := s
  cases main with
  | finished r => exact absurd rfl (hn r)
  | submitting =>
    refine ⟨.submit, ?_⟩
    simp only [ParJob.step]
    split <;> exact ⟨_, rfl⟩
  | raising e =>
    by_cases hr : runningIn futs = 0
    · exact ⟨.exit, _, by simp only [ParJob.step]; rw [if_pos (by rw [running_eq]; exact hr)]⟩
    · obtain ⟨i, h⟩ := runningIn_pos (Nat.pos_of_ne_zero hr)
      exact ⟨.finish i, _, by simp only [ParJob.step, h]; rfl⟩
  | collecting taken =>
    obtain ⟨h1, h2, h3, h4⟩ := hi.main
    simp only at h1 h2 h4
    by_cases hr : runningIn futs = 0
    · cases hp : firstPending futs with
      | some i =>
        refine ⟨.start, ?_⟩
        simp only [ParJob.step]
        rw [if_pos (by rw [running_eq]; simp only [hr]; omega), hp]
        exact ⟨_, rfl⟩
      | none =>
        have hpend := firstPending_none hp
        have hrun := runningIn_zero hr
        by_cases ht : taken.length = futs.length
        · exact ⟨.exit, _, by simp only [ParJob.step]; rw [if_pos ⟨ht, by rw [running_eq]; exact hr⟩]⟩
        · have hex : ∃ i, i < futs.length ∧ i ∉ taken := by
            by_contra hc
            push Not at hc
            have hsub : List.range futs.length ⊆ taken := fun m hm => hc m (List.mem_range.1 hm)
            have := (List.subperm_of_subset List.nodup_range hsub).length_le
            have h5 := taken_le hi
            simp at this
            omega
          obtain ⟨i, hil, hit⟩ := hex
          have hget := List.getElem?_eq_getElem hil
          have hmem := List.getElem_mem hil
          cases hf : futs[i] with
          | pending => exact absurd hf (hpend _ hmem)
          | running => exact absurd hf (hrun _ hmem)
          | cancelled => exact absurd hf (h2 _ hmem)
          | done r =>
            rw [hf] at hget
            refine ⟨.take i, ?_⟩
            simp only [ParJob.step, hget, if_neg hit]
            cases r with
            | ok v => exact ⟨_, rfl⟩
            | error e =>
              simp only
              split <;> exact ⟨_, rfl⟩
    · obtain ⟨i, h⟩ := runningIn_pos (Nat.pos_of_ne_zero hr)
      exact ⟨.finish i, _, by simp only [ParJob.step, h]; rfl⟩

end Grain
