import Verif.ProcPrefetch.Inv
namespace Grain

/-! Progress and termination of the process prefetch system. -/

section
variable {p : Iter α} {x : Nat → Option (Py α)} {At : p.S → Nat → Prop} {Ck : p.C → Nat → Prop} {size : Nat}
variable {idx : Nat → Bool} {keep crashes : Bool} {prog : List TOp}

private theorem work_step (sim : SimStream p x At Ck) {s : PPSys p} {w : PPWorker p} (hw : s.worker = some w) (hpc : w.pc = .work)
    (hok : PPWorkerOk At Ck idx s.stop w) : ∃ s', PPStep p size keep crashes s s' := by
  cases he : w.exh with
  | true => exact ⟨_, .work_wait hw hpc he⟩
  | false =>
    obtain ⟨m, hm, _⟩ := hok.it
    obtain ⟨it', e1, _⟩ := sim.next hm
    cases hr : streamRes x m with
    | item a => rw [hr] at e1; exact ⟨_, .work_item (n := 1) hw hpc he e1⟩
    | stop => rw [hr] at e1; exact ⟨_, .work_err hw hpc he (by intro a ha; cases ha) e1⟩
    | fail e => rw [hr] at e1; exact ⟨_, .work_err hw hpc he (by intro a ha; cases ha) e1⟩

private theorem apply_step (sim : SimStream p x At Ck) (hidx : IdxStream p x idx At) {s : PPSys p} {w : PPWorker p} {c : PPReq p.C}
    (hw : s.worker = some w) (hpc : w.pc = .apply c) (hok : PPWorkerOk At Ck idx s.stop w) : ∃ s', PPStep p size keep crashes s s' := by
  obtain ⟨m, hm, _⟩ := hok.it
  obtain ⟨q, hq⟩ := (hok.mark c (Or.inr hpc)).1
  cases c with
  | state c =>
    obtain ⟨it', e1, _⟩ := sim.set hm hq
    exact ⟨_, .apply hw hpc e1⟩
  | index i =>
    obtain ⟨it', e1, _⟩ := hidx.setIdx hm hq.2
    exact ⟨_, .apply_index hw hpc e1⟩

private theorem take_step {s : PPSys p} {w : PPWorker p} (hw : s.worker = some w) (hpc : w.pc = .take) (hlen : s.reqs.length = s.reqCount) :
    ∃ s', PPStep p size keep crashes s s' := by
  cases hn : s.reqCount with
  | zero => exact ⟨_, .take_none hw hpc hn⟩
  | succ n =>
    cases hr : s.reqs with
    | nil => rw [hr, hn] at hlen; cases hlen
    | cons c cs => exact ⟨_, .take hw hpc hn hr⟩

/-- While a call is under way or to be made some process can make a step, unless the worker has died while a restore was
pending. -/
theorem pp_progress (sim : SimStream p x At Ck) (hidx : IdxStream p x idx At) (hcalls : callsOk x idx crashes prog) (hsize : 0 < size) {s : PPSys p} (h : PPGood x At Ck idx crashes prog s)
    (hbusy : s.pc ≠ .idle ∨ s.prog ≠ []) :
    (∃ s', PPStep p size keep crashes s s') ∨
    (s.pc = .get ∧ s.buf = [] ∧ s.setCount ≠ 0 ∧ ∃ w, s.worker = some w ∧ w.pc = .dead) := by
  obtain ⟨v, l, done, h1, h2, h3, h4, h5, h6, h7, h8⟩ := h
  cases hpc : s.pc with
  | idle =>
    left
    cases hprog : s.prog with
    | nil => simp [hpc, hprog] at hbusy
    | cons op ops =>
      rw [hpc] at h1
      obtain ⟨r, hr⟩ := hcalls done op ops s.outs v (h6.trans (by rw [hprog])) h7
      cases op with
      | next =>
        cases ho : s.over with
        | true => exact ⟨_, .next_over hpc hprog ho⟩
        | false =>
          cases hcl : s.closed with
          | true => exact ⟨_, .next_closed hpc hprog ho hcl⟩
          | false =>
            cases hw : s.worker with
            | none => exact ⟨_, .next_start hpc hprog ho hcl hw⟩
            | some w => exact ⟨_, .next_wait hpc hprog ho hcl hw⟩
      | index =>
        cases hni : s.nextIndex with
        | some i => exact ⟨_, .index_known hpc hprog hni⟩
        | none =>
          cases hst : s.state with
          | none =>
            obtain ⟨j, e1, _⟩ := h1.2.2.1.2.1 hst
            rw [hni] at e1
            cases e1
          | some c =>
            simp only [viewStep] at hr
            split at hr
            · rename_i hi
              obtain ⟨it', f1, f2⟩ := sim.set sim.init (h1.2.2.1.1 c hst)
              exact ⟨_, .index hpc hprog hni hst f1 (hidx.getIdx f2 hi)⟩
            · cases hr
      | setIndex i => exact ⟨_, .jump_clear (j := 0) hpc hprog (Nat.zero_le _)⟩
      | save =>
        cases hst : s.state with
        | some c => exact ⟨_, .save hpc hprog hst⟩
        | none =>
          obtain ⟨j, e1, e2, e3⟩ := h1.2.2.1.2.1 hst
          by_cases hj : j = 0
          · rw [hj] at e1
            exact ⟨_, .save_zero hpc hprog hst e1⟩
          · rcases e3 with e3 | e3
            · obtain ⟨it', f1, f2⟩ := hidx.setIdx sim.init e3
              rw [← e2] at f1
              exact ⟨_, .save_index hpc hprog hst e1 hj f1⟩
            · rw [e3] at e2
              exact absurd e2 hj
      | restore k =>
        have hk : k < s.saved.length := by
          rw [h4]
          obtain ⟨q, hq, _⟩ := option_map_some hr
          exact (List.getElem?_eq_some_iff.1 hq).1
        exact ⟨_, .set_clear (j := 0) hpc hprog (List.getElem?_eq_getElem hk) (Nat.zero_le _)⟩
      | fresh k =>
        have hk : k < s.saved.length := by
          rw [h4]
          obtain ⟨q, hq, _⟩ := option_map_some hr
          exact (List.getElem?_eq_some_iff.1 hq).1
        exact ⟨_, .fresh hpc hprog (List.getElem?_eq_getElem hk)⟩
      | start =>
        cases hcl : s.closed with
        | true => exact ⟨_, .start_closed hpc hprog hcl⟩
        | false =>
          cases hw : s.worker with
          | none => exact ⟨_, .start hpc hprog hcl hw⟩
          | some w => exact ⟨_, .start_again hpc hprog hcl hw⟩
      | close =>
        cases hw : s.worker with
        | none => exact ⟨_, .close hpc hprog hw⟩
        | some w => exact ⟨_, .close_stop hpc hprog hw⟩
  | set1 c => exact Or.inl ⟨_, .set_put hpc⟩
  | set2 c =>
    rw [hpc] at h1
    obtain ⟨⟨op, ops, q, b1, _⟩, _⟩ := h1
    exact Or.inl ⟨_, .set_done hpc b1⟩
  | get =>
    rw [hpc] at h1
    obtain ⟨a1, a2, a3, a4, a5, ⟨ops, a6⟩, a7, a8, a9, a10⟩ := h1
    cases hb : s.buf with
    | cons e es =>
      left
      cases hm : ppIsMarker e with
      | true =>
        cases e with
        | marker => exact ⟨_, .get_marker hpc hb⟩
        | elem a c id => cases hm
        | err r => cases hm
      | false =>
        by_cases hz : s.setCount = 0
        · cases e with
          | marker => cases hm
          | elem a c id => exact ⟨_, .get_elem hpc a6 hb hz⟩
          | err r =>
            by_cases hk : keep = true
            · cases r with
              | stop => exact ⟨_, .get_end hpc a6 hb hz hk⟩
              | item a => exact ⟨_, .get_err hpc hb hz (Or.inl (by simp))⟩
              | fail e => exact ⟨_, .get_err hpc hb hz (Or.inl (by simp))⟩
            · exact ⟨_, .get_err hpc hb hz (Or.inr (by simpa using hk))⟩
        · exact ⟨_, .get_stale hpc hb hm hz⟩
    | nil =>
      cases hw : s.worker with
      | none => exact absurd hw a7
      | some w =>
        have hok := h2 w hw
        cases hp : w.pc with
        | top =>
          left
          by_cases hn : 0 < s.reqCount
          · exact ⟨_, .top_take hw hp a8 hn⟩
          · cases he : w.exh with
            | false => exact ⟨_, .top_work hw hp a8 (by omega) he⟩
            | true =>
              exfalso
              have hl : s.reqs = [] := List.length_eq_zero_iff.1 (by have := a9.1; omega)
              unfold PPValid at a10
              rw [hl, hw, hb] at a10
              simp only [List.getLast?_nil, PPWorkerAt, hp, he, ppAfter] at a10
              obtain ⟨m, hm, _⟩ := a10
              cases hm
        | take => exact Or.inl (take_step hw hp (by simpa using a9.1))
        | mark c => exact Or.inl ⟨_, .mark hw hp (by rw [hb]; exact hsize)⟩
        | apply c => exact Or.inl (apply_step sim hidx hw hp hok)
        | work => exact Or.inl (work_step sim hw hp hok)
        | put e => exact Or.inl ⟨_, .put hw hp (by rw [hb]; exact hsize)⟩
        | leaving => have := hok.leaving (Or.inl hp); rw [a8] at this; cases this
        | exited => have := hok.leaving (Or.inr hp); rw [a8] at this; cases this
        | failClear e => exact absurd hp (hok.noFail e).1
        | failPut e => exact absurd hp (hok.noFail e).2
        | dead =>
          by_cases hz : s.setCount = 0
          · exact Or.inl ⟨_, .get_dead hpc hb hw hp hz⟩
          · exact Or.inr ⟨rfl, rfl, hz, w, rfl, hp⟩
  | stop1 k => exact Or.inl ⟨_, .stop1_end hpc⟩
  | stop2 k => exact Or.inl ⟨_, .stop2 (j := 0) hpc (Nat.zero_le _)⟩
  | join k =>
    left
    rw [hpc] at h1
    obtain ⟨a1, a2, a3⟩ := h1
    cases hw : s.worker with
    | none => exact absurd hw a1
    | some w =>
      have hok := h2 w hw
      cases hp : w.pc with
      | top => exact ⟨_, .top_stop hw hp a2⟩
      | take =>
        refine take_step hw hp ?_
        cases k with
        | raise r => simpa using a3.2.2.2.2.2.2.1.1
        | close =>
          rcases a3.2.2.2.2 w hw with (h | h | h) | h
          · rw [hp] at h; cases h
          · rw [hp] at h; cases h
          · rw [hp] at h; cases h
          · exact h
      | mark c => exact ⟨_, .mark_stop hw hp a2⟩
      | apply c => exact apply_step sim hidx hw hp hok
      | work => exact work_step sim hw hp hok
      | put e => exact ⟨_, .put_stop hw hp a2⟩
      | leaving => exact ⟨_, .leave_end hw hp⟩
      | exited => exact ⟨_, .join hpc hw (Or.inl hp)⟩
      | dead => exact ⟨_, .join hpc hw (Or.inr hp)⟩
      | failClear e => exact absurd hp (hok.noFail e).1
      | failPut e => exact absurd hp (hok.noFail e).2
  | stop3 k =>
    left
    rw [hpc] at h1
    obtain ⟨a1, a2, a3, a4⟩ := h1
    cases hb : s.buf with
    | cons e es => exact ⟨_, .stop3 hpc hb⟩
    | nil =>
      cases k with
      | raise r =>
        obtain ⟨ops, hp⟩ := a3.2.2.2.2.2.1
        exact ⟨_, .raise hpc hb hp⟩
      | close =>
        obtain ⟨ops, hp⟩ := a3.2.2.2.1
        exact ⟨_, .closed hpc hb hp⟩

/-! Termination: a lexicographic measure. -/

def ppPhase : PPMain α C → Nat
  | .idle => 7
  | .get => 6
  | .set1 _ => 6
  | .set2 _ => 5
  | .stop1 _ => 4
  | .stop2 _ => 3
  | .join _ => 2
  | .stop3 _ => 1

def ppAlive : Option (PPWorker p) → Nat
  | none => 0
  | some w => match w.pc with
    | .dead => 0
    | _ => 1

def ppOthers (l : List (PPEntry α C)) : Nat := l.countP (fun e => !ppIsMarker e)

/-- Entries other than markers, before the last marker. -/
def ppBefore : List (PPEntry α C) → Nat
  | [] => 0
  | e :: es => if ppMarkers es = 0 then 0 else ppBefore es + (if ppIsMarker e then 0 else 1)

def ppWill (exh : Bool) : PPPc α C R → Nat
  | .mark _ => 1
  | .apply _ => 1
  | .work => if exh then 0 else 1
  | .put _ => 1
  | _ => 0

/-- How many entries other than markers may still come before the marker of the last restore. -/
def ppStale (buf : List (PPEntry α (PPSnap p))) (n : Nat) : Option (PPWorker p) → Nat
  | none => 0
  | some w => match w.pc with
    | .dead => buf.length
    | .mark _ => ppOthers buf + n + 1
    | pc => if n = 0 then ppBefore buf else ppOthers buf + n + ppWill w.exh pc

/-- Steps left to the worker while it is not being stopped. -/
def ppWork (size : Nat) (buf n : Nat) : Option (PPWorker p) → Nat
  | none => 0
  | some w => n + 12 * (size - buf) + (match w.pc with
    | .top => if n = 0 then 4 else 10
    | .take => 7
    | .mark _ => 1
    | .apply _ => 3
    | .work => if w.exh then (if n = 0 then 5 else 11) else 2
    | .put _ => 1
    | _ => 0)

/-- Steps left to the worker while it is being stopped. -/
def ppExit (buf : Nat) : Option (PPWorker p) → Nat
  | none => buf
  | some w => buf + (match w.pc with
    | .top => 2
    | .take => 10
    | .mark _ => 9
    | .apply _ => 7
    | .work => 6
    | .put _ => 5
    | .leaving => 1
    | _ => 0)

def ppInner (size : Nat) (s : PPSys p) : Nat × Nat × Nat :=
  match s.pc with
  | .get => (s.setCount, ppStale s.buf s.reqCount s.worker, ppWork size s.buf.length s.reqCount s.worker)
  | .idle => (0, 0, ppWork size s.buf.length s.reqCount s.worker)
  | .set1 _ => (0, 0, ppWork size s.buf.length s.reqCount s.worker)
  | .set2 _ => (0, 0, ppWork size s.buf.length s.reqCount s.worker)
  | _ => (0, 0, ppExit s.buf.length s.worker)

abbrev PPMeasure := Nat × Nat × Nat × Nat × Nat × Nat

def ppMeasure (size : Nat) (s : PPSys p) : PPMeasure :=
  (s.prog.length, ppPhase s.pc, ppAlive s.worker, ppInner size s)

abbrev ppLess : PPMeasure → PPMeasure → Prop :=
  Prod.Lex (· < ·) (Prod.Lex (· < ·) (Prod.Lex (· < ·) (Prod.Lex (· < ·) (Prod.Lex (· < ·) (· < ·)))))

abbrev ppLess3 : Nat × Nat × Nat → Nat × Nat × Nat → Prop := Prod.Lex (· < ·) (Prod.Lex (· < ·) (· < ·))

theorem ppLess_wf : WellFounded ppLess :=
  let w : WellFoundedRelation Nat := ⟨_, Nat.lt_wfRel.wf⟩
  (Prod.lex w (Prod.lex w (Prod.lex w (Prod.lex w (Prod.lex w w))))).wf

private theorem less_prog {a a' : Nat} {b b'} (h : a' < a) : ppLess (a', b') (a, b) := .left _ _ h
private theorem less_phase {a b b' : Nat} {c c'} (h : b' < b) : ppLess (a, b', c') (a, b, c) := .right _ (.left _ _ h)
private theorem less_alive {a b c c' : Nat} {d d'} (h : c' < c) : ppLess (a, b, c', d') (a, b, c, d) := .right _ (.right _ (.left _ _ h))
private theorem less_inner {a b c : Nat} {d d'} (h : ppLess3 d' d) : ppLess (a, b, c, d') (a, b, c, d) := .right _ (.right _ (.right _ h))

private theorem less3 {a a' b b' c c' : Nat} (h : a' < a ∨ a' = a ∧ (b' < b ∨ b' = b ∧ c' < c)) : ppLess3 (a', b', c') (a, b, c) := by
  rcases h with h | ⟨rfl, h | ⟨rfl, h⟩⟩
  · exact .left _ _ h
  · exact .right _ (.left _ _ h)
  · exact .right _ (.right _ h)

private theorem less3_le {a b b' c c' : Nat} (h : b' ≤ b) (h' : c' < c) : ppLess3 (a, b', c') (a, b, c) :=
  less3 (Or.inr ⟨rfl, by omega⟩)

theorem ppOthers_append (l l' : List (PPEntry α C)) : ppOthers (l ++ l') = ppOthers l + ppOthers l' := by simp [ppOthers]

theorem ppOthers_cons (e : PPEntry α C) (es : List (PPEntry α C)) :
    ppOthers (e :: es) = ppOthers es + (if ppIsMarker e then 0 else 1) := by
  simp only [ppOthers, List.countP_cons]
  cases ppIsMarker e <;> simp

theorem ppBefore_le (l : List (PPEntry α C)) : ppBefore l ≤ ppOthers l := by
  induction l with
  | nil => simp [ppBefore]
  | cons e es ih =>
    rw [ppOthers_cons, ppBefore]
    split <;> omega

theorem ppBefore_snoc_marker (l : List (PPEntry α C)) : ppBefore (l ++ [.marker]) = ppOthers l := by
  induction l with
  | nil => simp [ppBefore, ppMarkers, ppOthers]
  | cons e es ih =>
    rw [List.cons_append, ppBefore, if_neg, ih, ppOthers_cons]
    rw [ppMarkers_append]
    simp [ppMarkers, ppIsMarker]

theorem ppBefore_snoc {e : PPEntry α C} (l : List (PPEntry α C)) (he : ppIsMarker e = false) : ppBefore (l ++ [e]) = ppBefore l := by
  induction l with
  | nil => simp [ppBefore, ppMarkers]
  | cons y ys ih =>
    have hm : ppMarkers (ys ++ [e]) = ppMarkers ys := by
      rw [ppMarkers_append]; simp [ppMarkers, he]
    rw [List.cons_append, ppBefore, ppBefore, hm, ih]

/-- A step of the worker that neither ends nor kills it: the measure goes down if it does in every phase. -/
private theorem less_worker {s : PPSys p} (h : PPGood x At Ck idx crashes prog s) {w w' : PPWorker p} {buf' : List (PPEntry α (PPSnap p))}
    {reqs' : List (PPReq p.C)} {n' made' : Nat} {freed' : List Nat} (hw : s.worker = some w)
    (hd : w.pc ≠ .dead) (hd' : w'.pc ≠ .dead)
    (hrun : PPWorkerOk At Ck idx s.stop w → s.stop = false → ppWork size buf'.length n' (some w') < ppWork size s.buf.length s.reqCount (some w))
    (hstale : PPWorkerOk At Ck idx s.stop w → s.stop = false → ppStale buf' n' (some w') ≤ ppStale s.buf s.reqCount (some w))
    (hexit : PPWorkerOk At Ck idx s.stop w → s.stop = true → ppExit buf'.length (some w') < ppExit s.buf.length (some w)) :
    ppLess (ppMeasure size { s with buf := buf', reqs := reqs', reqCount := n', worker := some w', made := made', freed := freed' })
      (ppMeasure size s) := by
  obtain ⟨v, l, done, h1, h2, _⟩ := h
  have hok := h2 w hw
  have hne : s.worker ≠ none := by rw [hw]; simp
  have ha : ppAlive (some w') = ppAlive s.worker := by
    rw [hw]
    cases hp : w.pc <;> cases hp' : w'.pc <;> simp_all [ppAlive]
  unfold ppMeasure
  dsimp only
  rw [ha]
  apply less_inner
  unfold ppInner
  dsimp only
  rw [hw]
  cases hpc : s.pc with
  | idle =>
    rw [hpc] at h1
    exact less3_le (Nat.le_refl _) (hrun hok (h1.2.2.2.1 hne).1)
  | get =>
    rw [hpc] at h1
    have hst := h1.2.2.2.2.2.2.2.1
    exact less3_le (hstale hok hst) (hrun hok hst)
  | set1 c =>
    rw [hpc] at h1
    exact less3_le (Nat.le_refl _) (hrun hok (h1.2.2.1 hne).1)
  | set2 c =>
    rw [hpc] at h1
    exact less3_le (Nat.le_refl _) (hrun hok (h1.2.2.1 hne).1)
  | stop1 k => rw [hpc] at h1; exact less3_le (Nat.le_refl _) (hexit hok h1.2.1)
  | stop2 k => rw [hpc] at h1; exact less3_le (Nat.le_refl _) (hexit hok h1.2.1)
  | join k => rw [hpc] at h1; exact less3_le (Nat.le_refl _) (hexit hok h1.2.1)
  | stop3 k => rw [hpc] at h1; exact less3_le (Nat.le_refl _) (hexit hok h1.2.1)

private theorem less_exit {s : PPSys p} {e : PPEntry α (PPSnap p)} {es : List (PPEntry α (PPSnap p))} {freed' : List Nat} (hb : s.buf = e :: es)
    (hpc : ∀ b w, ppInner size { s with buf := b, worker := w } = (0, 0, ppExit b.length w)) :
    ppLess (ppMeasure size { s with buf := es, freed := freed' }) (ppMeasure size s) := by
  unfold ppMeasure
  apply less_inner
  have h1 := hpc es s.worker
  have h2 := hpc s.buf s.worker
  have h1' : ppInner size { s with buf := es, freed := freed' } = (0, 0, ppExit es.length s.worker) := h1
  rw [h1']
  have h2' : ppInner size s = (0, 0, ppExit s.buf.length s.worker) := h2
  rw [h2', hb]
  refine less3_le (Nat.le_refl _) ?_
  cases s.worker <;> simp only [ppExit, List.length_cons] <;> omega

theorem pp_decreases (sim : SimStream p x At Ck) (hidx : IdxStream p x idx At) {s s' : PPSys p} (h : PPGood x At Ck idx crashes prog s) (hstep : PPStep p size keep crashes s s') :
    ppLess (ppMeasure size s') (ppMeasure size s) := by
  cases hstep with
  | @top_stop w hw hpc hst =>
    refine less_worker h (reqs' := s.reqs) (n' := s.reqCount) (made' := s.made) (freed' := s.freed) (buf' := s.buf) hw (by simp [hpc]) (by simp) ?_ ?_ ?_
    · intro _ hs; rw [hst] at hs; cases hs
    · intro _ hs; rw [hst] at hs; cases hs
    · intro _ _; simp only [ppExit, hpc]; omega
  | @top_take w hw hpc hst hn =>
    refine less_worker h (reqs' := s.reqs) (n' := s.reqCount) (made' := s.made) (freed' := s.freed) (buf' := s.buf) hw (by simp [hpc]) (by simp) ?_ ?_ ?_
    · intro _ _; simp only [ppWork, hpc]; rw [if_neg (by omega)]; omega
    · intro _ _; simp only [ppStale, hpc, ppWill]; omega
    · intro _ hs; rw [hst] at hs; cases hs
  | @top_work w hw hpc hst hn hexh =>
    refine less_worker h (reqs' := s.reqs) (n' := s.reqCount) (made' := s.made) (freed' := s.freed) (buf' := s.buf) hw (by simp [hpc]) (by simp) ?_ ?_ ?_
    · intro _ _; simp only [ppWork, hpc, hexh, hn]; simp
    · intro _ _; simp only [ppStale, hpc, hn]; simp
    · intro _ hs; rw [hst] at hs; cases hs
  | @take_none w hw hpc hn =>
    refine less_worker h (reqs' := s.reqs) (n' := s.reqCount) (made' := s.made) (freed' := s.freed) (buf' := s.buf) hw (by simp [hpc]) (by simp) ?_ ?_ ?_
    · intro _ _; simp only [ppWork, hpc, hn]; split <;> simp
    · intro _ _; simp only [ppStale, hpc, hn]; simp
    · intro _ hs; simp only [ppExit, hpc]; omega
  | @take w n c cs hw hpc hn hr =>
    refine less_worker h (made' := s.made) (freed' := s.freed) (buf' := s.buf) hw (by simp [hpc]) (by simp) ?_ ?_ ?_
    · intro _ _; simp only [ppWork, hpc, hn]; omega
    · intro _ _; simp only [ppStale, hpc, hn, ppWill]; simp; omega
    · intro _ hs; simp only [ppExit, hpc]; omega
  | @mark w c hw hpc hroom =>
    refine less_worker h (reqs' := s.reqs) (n' := s.reqCount) (made' := s.made) (freed' := s.freed) hw (by simp [hpc]) (by simp) ?_ ?_ ?_
    · intro _ _; simp only [ppWork, hpc, List.length_append, List.length_cons, List.length_nil]; omega
    · intro _ _
      simp only [ppStale, hpc, ppWill]
      rw [ppBefore_snoc_marker, ppOthers_append]
      have : ppOthers ([.marker] : List (PPEntry α (PPSnap p))) = 0 := by simp [ppOthers, ppIsMarker]
      split <;> omega
    · intro _ hs; simp only [ppExit, hpc, List.length_append, List.length_cons, List.length_nil]; omega
  | @mark_stop w c hw hpc hst =>
    refine less_worker h (reqs' := s.reqs) (n' := s.reqCount) (made' := s.made) (freed' := s.freed) (buf' := s.buf) hw (by simp [hpc]) (by simp) ?_ ?_ ?_
    · intro _ hs; rw [hst] at hs; cases hs
    · intro _ hs; rw [hst] at hs; cases hs
    · intro _ _; simp only [ppExit, hpc]; omega
  | @apply w c it' hw hpc hset =>
    refine less_worker h (reqs' := s.reqs) (n' := s.reqCount) (made' := s.made) (freed' := s.freed) (buf' := s.buf) hw (by simp [hpc]) (by simp) ?_ ?_ ?_
    · intro hk _; simp only [ppWork, hpc, (hk.mark _ (Or.inr hpc)).2]; simp
    · intro hk _; simp only [ppStale, hpc, ppWill, (hk.mark _ (Or.inr hpc)).2]; simp
    · intro _ hs; simp only [ppExit, hpc]; omega
  | @apply_raise w c it' e hw hpc hset =>
    exfalso
    obtain ⟨v, l, done, h1, h2, _⟩ := h
    have hk := h2 w hw
    obtain ⟨m, hm, _⟩ := hk.it
    obtain ⟨q, hq⟩ := (hk.mark _ (Or.inr hpc)).1
    obtain ⟨s2, e1, e2⟩ := sim.set hm hq
    have := ev_unique e1 hset
    cases this
  | @apply_index w it' i hw hpc hset =>
    refine less_worker h (reqs' := s.reqs) (n' := s.reqCount) (made' := s.made) (freed' := s.freed) (buf' := s.buf) hw (by simp [hpc]) (by simp) ?_ ?_ ?_
    · intro hk _; simp only [ppWork, hpc, (hk.mark _ (Or.inr hpc)).2]; simp
    · intro hk _; simp only [ppStale, hpc, ppWill, (hk.mark _ (Or.inr hpc)).2]; simp
    · intro _ hs; simp only [ppExit, hpc]; omega
  | @apply_index_raise w it' e i hw hpc hset =>
    exfalso
    obtain ⟨v, l, done, h1, h2, _⟩ := h
    have hk := h2 w hw
    obtain ⟨m, hm, _⟩ := hk.it
    obtain ⟨q, _, hq⟩ := (hk.mark _ (Or.inr hpc)).1
    obtain ⟨s2, e1, e2⟩ := hidx.setIdx hm hq
    rw [hset] at e1
    cases e1
  | @work_wait w hw hpc hexh =>
    refine less_worker h (reqs' := s.reqs) (n' := s.reqCount) (made' := s.made) (freed' := s.freed) (buf' := s.buf) hw (by simp [hpc]) (by simp) ?_ ?_ ?_
    · intro _ _; simp only [ppWork, hpc, hexh]; split <;> simp
    · intro _ _; simp only [ppStale, hpc, hexh, ppWill]; simp
    · intro _ hs; simp only [ppExit, hpc]; omega
  | @work_item w it' a n hw hpc hexh hn =>
    refine less_worker h (reqs' := s.reqs) (n' := s.reqCount) (made' := s.made + n) (freed' := s.freed) (buf' := s.buf) hw (by simp [hpc]) (by simp) ?_ ?_ ?_
    · intro _ _; simp only [ppWork, hpc, hexh]; simp
    · intro _ _; simp only [ppStale, hpc, hexh, ppWill]; simp
    · intro _ hs; simp only [ppExit, hpc]; omega
  | @work_err w it' r hw hpc hexh hr hn =>
    refine less_worker h (reqs' := s.reqs) (n' := s.reqCount) (made' := s.made) (freed' := s.freed) (buf' := s.buf) hw (by simp [hpc]) (by simp) ?_ ?_ ?_
    · intro _ _; simp only [ppWork, hpc, hexh]; simp
    · intro _ _; simp only [ppStale, hpc, hexh, ppWill]; simp
    · intro _ hs; simp only [ppExit, hpc]; omega
  | @put w e hw hpc hroom =>
    refine less_worker h (reqs' := s.reqs) (n' := s.reqCount) (made' := s.made) (freed' := s.freed) hw (by simp [hpc]) (by simp) ?_ ?_ ?_
    · intro _ _
      simp only [ppWork, hpc, List.length_append, List.length_cons, List.length_nil]
      split <;> omega
    · intro hk _
      have hm := hk.noMarker e hpc
      simp only [ppStale, hpc, ppWill]
      rw [ppBefore_snoc _ hm, ppOthers_append]
      have : ppOthers ([e] : List (PPEntry α (PPSnap p))) = 1 := by simp [ppOthers, hm]
      split <;> omega
    · intro _ hs; simp only [ppExit, hpc, List.length_append, List.length_cons, List.length_nil]; omega
  | @put_stop w e hw hpc hst =>
    refine less_worker h (reqs' := s.reqs) (n' := s.reqCount) (made' := s.made) (buf' := s.buf) hw (by simp [hpc]) (by simp) ?_ ?_ ?_
    · intro _ hs; rw [hst] at hs; cases hs
    · intro _ hs; rw [hst] at hs; cases hs
    · intro _ _; simp only [ppExit, hpc]; omega
  | @leave w e es hw hpc hb =>
    have := less_worker (size := size) h (reqs' := s.reqs) (n' := s.reqCount) (made' := s.made) (freed' := s.freed ++ ppIds e) (buf' := es) (w' := w) hw
      (by simp [hpc]) (by simp [hpc]) (by intro hk hs; rw [hk.leaving (Or.inl hpc)] at hs; cases hs)
      (by intro hk hs; rw [hk.leaving (Or.inl hpc)] at hs; cases hs)
      (by intro _ _; simp only [ppExit, hpc, hb, List.length_cons]; omega)
    rw [← hw] at this
    exact this
  | @leave_end w hw hpc =>
    refine less_worker h (n' := s.reqCount) (made' := s.made) (freed' := s.freed) (buf' := s.buf) hw (by simp [hpc]) (by simp) ?_ ?_ ?_
    · intro hk hs; rw [hk.leaving (Or.inl hpc)] at hs; cases hs
    · intro hk hs; rw [hk.leaving (Or.inl hpc)] at hs; cases hs
    · intro _ _; simp only [ppExit, hpc]; omega
  | @fail_clear w e e' es hw hpc hb =>
    obtain ⟨v, l, done, h1, h2, _⟩ := h
    exact absurd hpc ((h2 w hw).noFail e).1
  | @fail_end w e hw hpc =>
    obtain ⟨v, l, done, h1, h2, _⟩ := h
    exact absurd hpc ((h2 w hw).noFail e).1
  | @fail_put w e hw hpc =>
    obtain ⟨v, l, done, h1, h2, _⟩ := h
    exact absurd hpc ((h2 w hw).noFail e).2
  | @fail_stop w e hw hpc =>
    obtain ⟨v, l, done, h1, h2, _⟩ := h
    exact absurd hpc ((h2 w hw).noFail e).2
  | @crash w hw h1 h2 hc =>
    refine less_alive ?_
    rw [hw]
    cases hp : w.pc <;> simp [ppAlive, hp] at h2 ⊢
  | next_over hpc hprog => apply less_prog; simp [hprog]
  | next_closed hpc hprog => apply less_prog; simp [hprog]
  | next_start hpc hprog => unfold ppMeasure; rw [hpc]; apply less_phase; simp [ppPhase]
  | next_wait hpc hprog => unfold ppMeasure; rw [hpc]; apply less_phase; simp [ppPhase]
  | @get_marker es hpc hb =>
    unfold ppMeasure ppInner
    rw [hpc]
    apply less_inner
    obtain ⟨v, l, done, h1, _⟩ := h
    rw [hpc] at h1
    have hc := h1.2.2.2.2.2.2.2.2.1.2
    rw [hb, ppMarkers_cons] at hc
    simp only [ppIsMarker, if_true] at hc
    refine less3 (Or.inl ?_)
    show s.setCount - 1 < s.setCount
    omega
  | @get_stale e es hpc hb hm hsc =>
    unfold ppMeasure ppInner
    rw [hpc]
    apply less_inner
    obtain ⟨v, l, done, h1, _⟩ := h
    rw [hpc] at h1
    have hc := h1.2.2.2.2.2.2.2.2.1.2
    rw [hb, ppMarkers_cons, hm] at hc
    refine less3 (Or.inr ⟨rfl, Or.inl ?_⟩)
    show ppStale es s.reqCount s.worker < ppStale s.buf s.reqCount s.worker
    rw [hb]
    cases hw : s.worker with
    | none => exact absurd hw h1.2.2.2.2.2.2.1
    | some w =>
      rw [hw] at hc
      cases hp : w.pc <;> simp only [ppTaken, hp, ppStale, ppOthers_cons, hm, List.length_cons, ppBefore, Bool.false_eq_true, if_false] at hc ⊢ <;>
        (repeat' split) <;> omega
  | get_elem hpc hprog => apply less_prog; simp [hprog]
  | get_end hpc hprog => apply less_prog; simp [hprog]
  | get_err hpc => unfold ppMeasure; rw [hpc]; apply less_phase; simp [ppPhase]
  | get_dead hpc => unfold ppMeasure; rw [hpc]; apply less_phase; simp [ppPhase]
  | save hpc hprog => apply less_prog; simp [hprog]
  | save_zero hpc hprog => apply less_prog; simp [hprog]
  | save_index hpc hprog => apply less_prog; simp [hprog]
  | index_known hpc hprog => apply less_prog; simp [hprog]
  | index hpc hprog => apply less_prog; simp [hprog]
  | jump_clear hpc => unfold ppMeasure; rw [hpc]; apply less_phase; simp [ppPhase]
  | set_clear hpc => unfold ppMeasure; rw [hpc]; apply less_phase; simp [ppPhase]
  | set_put hpc => unfold ppMeasure; rw [hpc]; apply less_phase; simp [ppPhase]
  | set_done hpc hprog => apply less_prog; simp [hprog]
  | fresh hpc hprog =>
    unfold ppMeasure
    rw [hpc, hprog]
    exact less_phase (by simp [ppPhase])
  | start_closed hpc hprog => apply less_prog; simp [hprog]
  | start hpc hprog => apply less_prog; simp [hprog]
  | start_again hpc hprog => apply less_prog; simp [hprog]
  | close hpc hprog => apply less_prog; simp [hprog]
  | close_stop hpc hprog => unfold ppMeasure; rw [hpc]; apply less_phase; simp [ppPhase]
  | stop1 hpc hb => exact less_exit hb (by intro b w; simp [ppInner, hpc])
  | stop1_end hpc => unfold ppMeasure; rw [hpc]; apply less_phase; simp [ppPhase]
  | stop2 hpc => unfold ppMeasure; rw [hpc]; apply less_phase; simp [ppPhase]
  | join hpc => unfold ppMeasure; rw [hpc]; apply less_phase; simp [ppPhase]
  | stop3 hpc hb => exact less_exit hb (by intro b w; simp [ppInner, hpc])
  | raise hpc hb hprog => apply less_prog; simp [hprog]
  | closed hpc hb hprog => apply less_prog; simp [hprog]
  | kill_raise hpc hw hprog => apply less_prog; simp [hprog]
  | kill_close hpc hw hprog => apply less_prog; simp [hprog]

theorem ppGood_run (sim : SimStream p x At Ck) (hidx : IdxStream p x idx At) (hcalls : callsOk x idx crashes prog) {s s' : PPSys p} (h : PPGood x At Ck idx crashes prog s)
    (hrun : PPRun p size keep crashes s s') : PPGood x At Ck idx crashes prog s' := by
  induction hrun with
  | refl => exact h
  | step _ hst ih => exact ppGood_step sim hidx hcalls ih hst

end
end Grain
