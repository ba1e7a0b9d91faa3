import Verif.ThreadPrefetch.Inv
namespace Grain

/-! Progress and termination of the thread prefetch system. -/

section
variable {p : Iter α} {x : Nat → Option (Py α)} {At : p.S → Nat → Prop} {Ck : p.C → Nat → Prop} {size : Nat} {idx : Nat → Bool}

private theorem read_step (sim : SimStream p x At Ck) {s : TPSys p} {m : Nat} (hat : At s.ps m) (ht : s.thread = some .read) :
    ∃ s', TPStep p size s s' := by
  obtain ⟨ps', e1, _⟩ := sim.next hat
  exact ⟨_, .read ht e1⟩

/-- As long as a call is under way or to be made, some thread can make a step. -/
theorem tp_progress (sim : SimStream p x At Ck) (hidx : IdxStream p x idx At) {s : TPSys p} {total : List (Res α ⊕ Int)} (h : TPGood x At Ck idx size total s)
    (hbusy : s.pc ≠ .idle ∨ s.prog ≠ []) : ∃ s', TPStep p size s s' := by
  obtain ⟨pos, last, mv, sp, rest, h1, h2, h3, h4, h5, h6, h7⟩ := h
  cases hpc : s.pc with
  | idle =>
    rw [hpc] at h1
    cases hprog : s.prog with
    | nil => simp [hpc, hprog] at hbusy
    | cons op ops =>
      rw [hprog] at h5
      cases op with
      | next =>
        rcases Nat.eq_zero_or_pos size with hz | hz
        · have hcl := (h7 hz).1
          rcases h1 with ⟨hth, hb, hat⟩ | ⟨_, _, hs⟩
          · obtain ⟨ps', e1, _⟩ := sim.next (hat hcl)
            cases hr : streamRes x pos with
            | item a => rw [hr] at e1; exact ⟨_, .zero_item hpc hprog hz hb e1⟩
            | stop => rw [hr] at e1; exact ⟨_, .zero_raise hpc hprog hz hb (by intro a ha; cases ha) e1⟩
            | fail e => rw [hr] at e1; exact ⟨_, .zero_raise hpc hprog hz hb (by intro a ha; cases ha) e1⟩
          · omega
        · cases hcl : s.closed with
          | true => exact ⟨_, .next_closed hpc hprog hz hcl⟩
          | false =>
            cases hth : s.thread with
            | none => exact ⟨_, .next_start hpc hprog hz hcl hth⟩
            | some t => exact ⟨_, .next_wait hpc hprog hz hcl hth⟩
      | save => exact ⟨_, .save hpc hprog⟩
      | restore k =>
        simp only [idealRun] at h5
        cases hq : sp[k]? with
        | none => rw [hq] at h5; cases h5
        | some q =>
          rw [hq] at h5
          have hk : k < s.saved.length := by
            rw [h3]
            exact (List.getElem?_eq_some_iff.1 hq).1
          have hc : s.saved[k]? = some s.saved[k] := List.getElem?_eq_getElem _
          cases hth : s.thread with
          | some t => exact ⟨_, .restore_stop hpc hprog hc hth⟩
          | none =>
            rcases h1 with ⟨_, hb, hat⟩ | ⟨⟨t', m, b, q1, _⟩, _⟩
            · cases hcl : s.closed with
              | true => rw [hcl] at h5; cases h5
              | false =>
                obtain ⟨s2, e1, e2⟩ := sim.set (hat hcl) (h4 k _ q hc hq)
                exact ⟨_, .restore hpc hprog hc hth e1⟩
            · rw [hth] at q1; cases q1
      | fresh k =>
        simp only [idealRun] at h5
        cases hq : sp[k]? with
        | none => rw [hq] at h5; cases h5
        | some q =>
          have hk : k < s.saved.length := by
            rw [h3]
            exact (List.getElem?_eq_some_iff.1 hq).1
          have hc : s.saved[k]? = some s.saved[k] := List.getElem?_eq_getElem _
          obtain ⟨s2, e1, e2⟩ := sim.set (sim.get sim.init).1 (h4 k _ q hc hq)
          exact ⟨_, .fresh hpc hprog hc e1⟩
      | start =>
        cases hcl : s.closed with
        | true => exact ⟨_, .start_closed hpc hprog hcl⟩
        | false =>
          cases hth : s.thread with
          | none => exact ⟨_, .start hpc hprog hcl hth⟩
          | some t => exact ⟨_, .start_again hpc hprog hcl hth⟩
      | close =>
        cases hth : s.thread with
        | none => exact ⟨_, .close hpc hprog hth⟩
        | some t => exact ⟨_, .close_stop hpc hprog hth⟩
      | index =>
        cases hcl : s.closed with
        | true => rw [hcl] at h5; simp only [idealRun] at h5; cases h5
        | false =>
          rw [hcl] at h5
          simp only [idealRun] at h5
          split at h5
          · rename_i hi
            cases hn : s.nextIndex with
            | some i => exact ⟨_, .index_known hpc hprog hn⟩
            | none =>
              cases hth : s.thread with
              | some t => exact ⟨_, .index_stop hpc hprog hn hth⟩
              | none =>
                rcases h1 with ⟨_, hb, hat⟩ | ⟨⟨t', m, b, q1, _⟩, _⟩
                · obtain ⟨c1, c2⟩ := h2.state sim (Or.inr (hat hcl))
                  obtain ⟨s2, f1, f2⟩ := sim.set (c2 _ (hat hcl)) c1
                  exact ⟨_, .index hpc hprog hn hth f1 (hidx.getIdx f2 hi)⟩
                · rw [hth] at q1; cases q1
          · cases h5
      | setIndex i =>
        cases hcl : s.closed with
        | true => rw [hcl] at h5; simp only [idealRun] at h5; cases h5
        | false =>
          rw [hcl] at h5
          simp only [idealRun] at h5
          split at h5
          · rename_i hi
            cases hth : s.thread with
            | some t => exact ⟨_, .set_index_stop hpc hprog hth⟩
            | none =>
              rcases h1 with ⟨_, hb, hat⟩ | ⟨⟨t', m, b, q1, _⟩, _⟩
              · obtain ⟨s2, f1, f2⟩ := hidx.setIdx (hat hcl) hi
                exact ⟨_, .set_index hpc hprog hth f1⟩
              · rw [hth] at q1; cases q1
          · cases h5
  | get =>
    rw [hpc] at h1
    obtain ⟨hcl, hsize, ⟨ops, hprog⟩, t, m, b, q1, q2, q3, q4, q5, q6⟩ := h1
    cases hb : s.buf with
    | cons e es =>
      cases e with
      | elem a c => exact ⟨_, .get_elem hpc hprog hb⟩
      | err r => exact ⟨_, .get_err hpc hb⟩
    | nil =>
      cases t with
      | check => exact ⟨_, .check_go q1 q2⟩
      | read => exact read_step sim q4 q1
      | put e => exact ⟨_, .put q1 (by rw [hb]; exact Or.inr hsize)⟩
      | exited =>
        have := q6 rfl
        subst this
        rw [hb] at q3
        cases q3
  | clear1 k =>
    cases hb : s.buf with
    | cons e es => exact ⟨_, .clear1 hpc hb⟩
    | nil => exact ⟨_, .clear1_end hpc hb⟩
  | join k =>
    rw [hpc] at h1
    obtain ⟨⟨t, q1, q1'⟩, q2, q3, q4⟩ := h1
    cases t with
    | check => exact ⟨_, .check_stop q1 q2⟩
    | read =>
      cases k with
      | raise r =>
        have := q4.2.2.2.2.2.2
        rw [q1] at this
        rcases this with h' | h' <;> cases h'
      | restore c =>
        obtain ⟨_, _, m, hm⟩ := q4
        exact read_step sim hm q1
      | close =>
        obtain ⟨_, _, m, hm⟩ := q4
        exact read_step sim hm q1
      | getIndex c =>
        obtain ⟨_, _, _, _, m, hm⟩ := q4
        exact read_step sim hm q1
      | setIndex i =>
        obtain ⟨_, _, m, hm⟩ := q4
        exact read_step sim hm q1
    | put e => exact ⟨_, .put q1 (by rw [q1' (Or.inr ⟨e, rfl⟩)]; exact Or.inr q3)⟩
    | exited => exact ⟨_, .join hpc q1⟩
  | clear2 k =>
    rw [hpc] at h1
    cases hb : s.buf with
    | cons e es => exact ⟨_, .clear2 hpc hb⟩
    | nil =>
      cases k with
      | raise r =>
        obtain ⟨q1, q2, hcl, ⟨ops', hp'⟩, _⟩ := h1
        exact ⟨_, .raise hpc hb hp'⟩
      | restore c =>
        obtain ⟨q1, q2, hcl, ⟨k, ops', hp', hc⟩, m, hat⟩ := h1
        rw [hp', hcl] at h5
        simp only [idealRun] at h5
        cases hq : sp[k]? with
        | none => rw [hq] at h5; cases h5
        | some q =>
          obtain ⟨s2, e1, e2⟩ := sim.set hat (h4 k c q hc hq)
          exact ⟨_, .restored hpc hb hp' e1⟩
      | close =>
        obtain ⟨q1, q2, hcl, ⟨ops', hp'⟩, _⟩ := h1
        exact ⟨_, .closed hpc hb hp'⟩
      | getIndex c =>
        obtain ⟨q1, q2, hcl, hn, ⟨ops', hp'⟩, hst, m, hat⟩ := h1
        rw [hp', hcl] at h5
        simp only [idealRun] at h5
        split at h5
        · rename_i hi
          obtain ⟨s2, f1, f2⟩ := sim.set hat (h2.1 c hst)
          exact ⟨_, .indexed hpc hb hp' f1 (hidx.getIdx f2 hi)⟩
        · cases h5
      | setIndex i =>
        obtain ⟨q1, q2, hcl, ⟨ops', hp'⟩, m, hat⟩ := h1
        rw [hp', hcl] at h5
        simp only [idealRun] at h5
        split at h5
        · rename_i hi
          obtain ⟨s2, f1, f2⟩ := hidx.setIdx hat hi
          exact ⟨_, .index_set hpc hb hp' f1⟩
        · cases h5

def tpPhase : TPConsumer α C → Nat
  | .idle => 4
  | .get => 3
  | .clear1 _ => 2
  | .join _ => 1
  | .clear2 _ => 0

/-- Steps left to the producer: in its loop until the buffer is full, or until it notices the stop request. -/
def tpWork (size : Nat) (buf : Nat) : TPConsumer α C → Option (TPProducer α C) → Nat
  | .idle, some .check => 3 * (size - buf) + 2
  | .idle, some .read => 3 * (size - buf) + 1
  | .idle, _ => 3 * (size - buf)
  | .get, some .check => 3 * (size - buf) + 2
  | .get, some .read => 3 * (size - buf) + 1
  | .get, _ => 3 * (size - buf)
  | _, some .check => buf + 2
  | _, some .read => buf + 8
  | _, some (.put _) => buf + 6
  | _, _ => buf

def tpMeasure (size : Nat) (s : TPSys p) : Nat × Nat × Nat :=
  (s.prog.length, tpPhase s.pc, tpWork size s.buf.length s.pc s.thread)

abbrev tpLess : Nat × Nat × Nat → Nat × Nat × Nat → Prop := Prod.Lex (· < ·) (Prod.Lex (· < ·) (· < ·))

private theorem less1 {a a' : Nat} {b b' : Nat × Nat} (h : a' < a) : tpLess (a', b') (a, b) := Prod.Lex.left _ _ h
private theorem less2 {a b b' c c' : Nat} (h : b' < b) : tpLess (a, b', c') (a, b, c) := Prod.Lex.right _ (Prod.Lex.left _ _ h)
private theorem less3 {a b c c' : Nat} (h : c' < c) : tpLess (a, b, c') (a, b, c) := Prod.Lex.right _ (Prod.Lex.right _ h)

theorem tp_decreases {s s' : TPSys p} {total : List (Res α ⊕ Int)} (h : TPGood x At Ck idx size total s) (hstep : TPStep p size s s') :
    tpLess (tpMeasure size s') (tpMeasure size s) := by
  cases hstep with
  | check_go ht hs =>
    apply less3
    obtain ⟨pos, last, mv, sp, rest, h1, _⟩ := h
    rw [ht]
    generalize s.pc = q at h1
    cases q with
    | idle => simp only [tpWork]; omega
    | get => simp only [tpWork]; omega
    | clear1 k => have := h1.2.1; rw [hs] at this; cases this
    | join k => have := h1.2.1; rw [hs] at this; cases this
    | clear2 k => have := h1.1; rw [ht] at this; cases this
  | check_stop ht hs =>
    apply less3
    obtain ⟨pos, last, mv, sp, rest, h1, _⟩ := h
    rw [ht]
    generalize s.pc = q at h1
    cases q <;> simp only [tpWork] <;> omega
  | read ht hn =>
    apply less3
    rw [ht]
    generalize s.pc = q
    cases q <;> simp only [tpWork] <;> omega
  | @put e ht hroom =>
    apply less3
    obtain ⟨pos, last, mv, sp, rest, h1, h2, h3, h4, h5, h6, h7⟩ := h
    rw [ht]
    simp only [List.length_append, List.length_cons, List.length_nil]
    have hrun : TPRunning x At Ck s pos → True := fun _ => trivial
    generalize s.pc = q at h1
    cases q with
    | idle =>
      rcases h1 with ⟨h', _⟩ | ⟨_, _, hs⟩
      · rw [ht] at h'; cases h'
      · rcases hroom with hz | hz
        · omega
        · cases e <;> simp only [tpWork, tpAfterPut] <;> omega
    | get =>
      have hs := h1.2.1
      rcases hroom with hz | hz
      · omega
      · cases e <;> simp only [tpWork, tpAfterPut] <;> omega
    | clear1 k => cases e <;> simp only [tpWork, tpAfterPut] <;> omega
    | join k => cases e <;> simp only [tpWork, tpAfterPut] <;> omega
    | clear2 k => cases e <;> simp only [tpWork, tpAfterPut] <;> omega
  | next_closed hpc hprog => apply less1; simp [hprog]
  | next_start hpc => unfold tpMeasure; rw [hpc]; apply less2; simp [tpPhase]
  | next_wait hpc => unfold tpMeasure; rw [hpc]; apply less2; simp [tpPhase]
  | get_elem hpc hprog => apply less1; simp [hprog]
  | get_err hpc => unfold tpMeasure; rw [hpc]; apply less2; simp [tpPhase]
  | zero_elem hpc hprog => apply less1; simp [hprog]
  | zero_err hpc hprog => unfold tpMeasure; rw [hpc]; apply less2; simp [tpPhase]
  | zero_item hpc hprog => apply less1; simp [hprog]
  | zero_raise hpc hprog => apply less1; simp [hprog]
  | save hpc hprog => apply less1; simp [hprog]
  | restore_stop hpc => unfold tpMeasure; rw [hpc]; apply less2; simp [tpPhase]
  | restore hpc hprog => apply less1; simp [hprog]
  | fresh hpc hprog => apply less1; simp [hprog, tpInit]
  | start_closed hpc hprog => apply less1; simp [hprog]
  | start hpc hprog => apply less1; simp [hprog]
  | start_again hpc hprog => apply less1; simp [hprog]
  | close_stop hpc hprog => unfold tpMeasure; rw [hpc]; apply less2; simp [tpPhase]
  | close hpc hprog => apply less1; simp [hprog]
  | index_known hpc hprog => apply less1; simp [hprog]
  | index_stop hpc hprog => unfold tpMeasure; rw [hpc]; apply less2; simp [tpPhase]
  | index hpc hprog => apply less1; simp [hprog]
  | set_index_stop hpc hprog => unfold tpMeasure; rw [hpc]; apply less2; simp [tpPhase]
  | set_index hpc hprog => apply less1; simp [hprog]
  | indexed hpc hb hprog => apply less1; simp [hprog]
  | index_set hpc hb hprog => apply less1; simp [hprog]
  | @clear1 k e es hpc hb =>
    apply less3
    rw [hb]
    simp only [hpc, List.length_cons]
    generalize s.thread = t
    cases t with
    | none => simp only [tpWork]; omega
    | some t => cases t <;> simp only [tpWork] <;> omega
  | clear1_end hpc => unfold tpMeasure; rw [hpc]; apply less2; simp [tpPhase]
  | join hpc => unfold tpMeasure; rw [hpc]; apply less2; simp [tpPhase]
  | @clear2 k e es hpc hb =>
    apply less3
    rw [hb]
    simp only [hpc, List.length_cons]
    generalize s.thread = t
    cases t with
    | none => simp only [tpWork]; omega
    | some t => cases t <;> simp only [tpWork] <;> omega
  | raise hpc hb hprog => apply less1; simp [hprog]
  | restored hpc hb hprog => apply less1; simp [hprog]
  | closed hpc hb hprog => apply less1; simp [hprog]

theorem tpLess_wf : WellFounded tpLess := (Prod.lex (WellFoundedRelation.mk _ Nat.lt_wfRel.wf) (Prod.lex (WellFoundedRelation.mk _ Nat.lt_wfRel.wf) (WellFoundedRelation.mk _ Nat.lt_wfRel.wf))).wf

theorem tpGood_run (sim : SimStream p x At Ck) (hidx : IdxStream p x idx At) {s s' : TPSys p} {total : List (Res α ⊕ Int)} (h : TPGood x At Ck idx size total s)
    (hrun : TPRun p size s s') : TPGood x At Ck idx size total s' := by
  induction hrun with
  | refl => exact h
  | step _ hst ih => exact tpGood_step sim hidx ih hst

end
end Grain
