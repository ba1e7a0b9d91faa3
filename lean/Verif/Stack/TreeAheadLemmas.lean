import Verif.Stack.Ahead
import Verif.Stack.InterleaveProps
import Mathlib.Algebra.BigOperators.Fin
import Mathlib.Algebra.Order.BigOperators.Group.Finset
/-
How far trees of layers read ahead: the states in which no restore is under way, and the bounds of the layers.
-/
namespace Grain

/-- The states reached without restores, in terms of a predicate that the steps keep. -/
structure Tame (c : ConcIter β) (Q : c.S → Prop) : Prop where
  init : Q c.init
  step : ∀ {s t}, Q s → c.step s t → Q t
  call : ∀ {s t}, Q s → c.call s t → Q t
  ret : ∀ {s r t}, Q s → c.ret s r t → Q t
  get : ∀ {s}, Q s → Q (c.get s).1

/-- A simulation together with such a predicate. -/
def Along {S : Type} (I : Nat → CMode → S → Prop) (Q : S → Prop) (n : Nat) (m : CMode) (s : S) : Prop := I n m s ∧ Q s

theorem renewed_tame {c : ConcIter β} {Q : c.S → Prop} (h : Tame c Q) : Tame (renewed c) Q :=
  ⟨h.init, h.step, h.call, h.ret, h.get⟩

theorem ofIter_tame (p : Iter α) : Tame (ofIter p) (fun _ => True) :=
  ⟨trivial, fun _ _ => trivial, fun _ _ => trivial, fun _ _ => trivial, fun _ => trivial⟩

/-! ### Transformations of one input -/

/-- No restore is under way in a transformation, nor below. -/
def TrTame {T : Trans α β} {c : ConcIter α} (Q : c.S → Prop) (s : TrState T c) : Prop :=
  Q s.cs ∧ ∀ ck, s.pc ≠ .setPar ck

theorem trGoto_tame {T : Trans α β} {c : ConcIter α} {Q : c.S → Prop} {s : TrState T c} (h : Q s.cs) (r) : TrTame Q (s.goto r) := by
  rcases r with k | ⟨r, l⟩ <;> exact ⟨h, fun ck hck => by cases hck⟩

theorem trans_tame {T : Trans α β} {c : ConcIter α} {Q : c.S → Prop} (h : Tame c Q) : Tame (transOver T c) (TrTame Q) := by
  constructor
  · exact ⟨h.init, fun ck hck => by cases hck⟩
  · rintro s t ⟨h1, h2⟩ hs
    cases hs with
    | below t ht => exact ⟨h.step h1 ht, h2⟩
    | ask k t _ ht => exact ⟨h.call h1 ht, fun ck hck => by cases hck⟩
    | got k r t _ ht => exact trGoto_tame (h.ret h1 ht) _
    | setPar ck t hp _ => exact absurd hp (h2 ck)
  · rintro s t ⟨h1, h2⟩ ⟨-, rfl⟩
    exact trGoto_tame h1 _
  · rintro s r t ⟨h1, h2⟩ ⟨-, rfl⟩
    exact ⟨h1, fun ck hck => by cases hck⟩
  · rintro s ⟨h1, h2⟩
    exact ⟨h.get h1, h2⟩

theorem trInv_along {T : Trans α β} {c : ConcIter α} {x : Nat → Option α} {y : Nat → Option β} {I : Nat → CMode → c.S → Prop}
    {K : Nat → c.C → Prop} {At : Nat → Nat → T.L → Prop} {Q : c.S → Prop} {n m w} {s : TrState T c}
    (h : TrInv x y I K At n m w s) (hq : TrTame Q s) : TrInv x y (Along I Q) K At n m w s := by
  rcases s with ⟨cs, loc, pc⟩
  have h1 : Q cs := hq.1
  cases pc <;> cases m <;> try exact h.elim
  · obtain ⟨e, i, h2, h3⟩ := h
    exact ⟨e, i, h2, h3, h1⟩
  · obtain ⟨d, i, j, l, e, h2, h3, h4⟩ := h
    exact ⟨d, i, j, l, e, h2, h3, h4, h1⟩
  · obtain ⟨d, i, j, l, e, h2, h3, h4⟩ := h
    exact ⟨d, i, j, l, e, h2, h3, h4, h1⟩
  · obtain ⟨e, e', i, h2, h3⟩ := h
    exact ⟨e, e', i, h2, h3, h1⟩
  · obtain ⟨e, i, e', h2, h3, h4⟩ := h
    exact ⟨e, i, e', h2, h3, h4, h1⟩
  · obtain ⟨e, i, h2, h3⟩ := h
    exact ⟨e, i, h2, h3, h1⟩

/-! ### Thread prefetch -/

/-- No restore is under way in a thread prefetch, nor below. -/
def PrefTame {c : ConcIter α} (Q : c.S → Prop) (s : PrefState c) : Prop :=
  Q s.cs ∧ match s.pc with
    | .stop (some _) => False
    | .clear (some _) => False
    | .join (some _) => False
    | .clearAgain (some _) => False
    | .setPar _ => False
    | .setting => False
    | .setGot => False
    | .setDone => False
    | _ => True

theorem prefetch_tame {c : ConcIter α} {Q : c.S → Prop} {size : Nat} (h : Tame c Q) :
    Tame (prefetchOver size c) (PrefTame Q) := by
  constructor
  · exact ⟨h.get h.init, trivial⟩
  · rintro s t ⟨h1, h2⟩ hs
    cases hs with
    | below t ht => exact ⟨h.step h1 ht, h2⟩
    | check _ => exact ⟨h1, h2⟩
    | call t _ ht => exact ⟨h.call h1 ht, h2⟩
    | item a t _ ht => exact ⟨h.ret h1 ht, h2⟩
    | over t _ ht => exact ⟨h.ret h1 ht, h2⟩
    | getState a _ => exact ⟨h.get h1, h2⟩
    | put e _ _ => exact ⟨h1, h2⟩
    | start _ _ => exact ⟨h1, trivial⟩
    | take a ck b _ _ => exact ⟨h1, trivial⟩
    | takeStop b _ _ => exact ⟨h1, trivial⟩
    | sync t _ _ _ ht => exact ⟨h.call h1 ht, trivial⟩
    | syncItem a t _ ht => exact ⟨h.ret h1 ht, trivial⟩
    | syncOver t _ ht => exact ⟨h.ret h1 ht, trivial⟩
    | syncState a _ => exact ⟨h.get h1, trivial⟩
    | stopNone k hp _ =>
      rw [hp] at h2
      cases k with
      | none => exact ⟨h1, trivial⟩
      | some ck => exact h2.elim
    | stopSome k hp _ =>
      rw [hp] at h2
      cases k with
      | none => exact ⟨h1, trivial⟩
      | some ck => exact h2.elim
    | clear k e b hp _ => exact ⟨h1, h2⟩
    | clearEnd k hp _ =>
      rw [hp] at h2
      cases k with
      | none => exact ⟨h1, trivial⟩
      | some ck => exact h2.elim
    | join k hp _ =>
      rw [hp] at h2
      cases k with
      | none => exact ⟨h1, trivial⟩
      | some ck => exact h2.elim
    | again k e b hp _ => exact ⟨h1, h2⟩
    | againEnd k hp _ =>
      rw [hp] at h2
      cases k with
      | none => exact ⟨h1, trivial⟩
      | some ck => exact h2.elim
    | setPar ck t hp _ =>
      rw [hp] at h2
      exact h2.elim
    | setRet t hp _ =>
      rw [hp] at h2
      exact h2.elim
    | setGet hp =>
      rw [hp] at h2
      exact h2.elim
  · rintro s t ⟨h1, h2⟩ ⟨-, rfl⟩
    exact ⟨h1, trivial⟩
  · rintro s r t ⟨h1, h2⟩ ⟨-, rfl⟩
    exact ⟨h1, trivial⟩
  · rintro s ⟨h1, h2⟩
    exact ⟨h1, h2⟩

theorem running_along {c : ConcIter α} {x : Nat → Option α} {I : Nat → CMode → c.S → Prop} {K : Nat → c.C → Prop}
    {Q : c.S → Prop} {n} {s : PrefState c} (h : Running x I K n s) (hq : Q s.cs) : Running x (Along I Q) K n s := by
  rcases s with ⟨cs, state, buf, thr, flag, pc⟩
  replace hq : Q cs := hq
  rcases thr with _ | (_ | _ | _ | _ | (_ | ⟨a, ck⟩) | _) <;> simp only [Running] at h ⊢
  · exact ⟨h.1, h.2, hq⟩
  · obtain ⟨h1, e, h2, h3⟩ := h
    exact ⟨h1, e, h2, h3, hq⟩
  · obtain ⟨h1, e, h2, h3⟩ := h
    exact ⟨h1, e, h2, h3, hq⟩
  · obtain ⟨h1, e, h2, h3⟩ := h
    exact ⟨h1, e, h2, h3, hq⟩
  · obtain ⟨h1, e, h2, h3, h4⟩ := h
    exact ⟨h1, e, h2, h3, h4, hq⟩
  · obtain ⟨h1, e, h2, h3, h4⟩ := h
    exact ⟨h1, e, h2, h3, h4, hq⟩
  · obtain ⟨h1, e, h2, h3, h4, h5⟩ := h
    exact ⟨h1, e, h2, h3, h4, h5, hq⟩
  · obtain ⟨h1, e, b, h2, h3, h4, h5⟩ := h
    exact ⟨h1, e, b, h2, h3, h4, h5, hq⟩

theorem prefInv_along {c : ConcIter α} {x : Nat → Option α} {I : Nat → CMode → c.S → Prop} {K : Nat → c.C → Prop}
    {Q : c.S → Prop} {n m} {s : PrefState c} (h : PrefInv x I K n m s) (hq : PrefTame Q s) :
    PrefInv x (Along I Q) K n m s := by
  obtain ⟨h1, h2⟩ := hq
  rcases s with ⟨cs, state, buf, thr, flag, pc⟩
  rcases pc with _ | _ | _ | _ | _ | (_ | _) | (_ | _) | (_ | _) | (_ | _) | _ | _ | _ | _ | _ <;> cases m <;>
    first
    | exact h.elim
    | exact h2.elim
    | exact ⟨running_along h.1 h1, h.2⟩
    | exact ⟨h.1, running_along h.2.1 h1, h.2.2⟩
    | exact ⟨h.1, h.2.1, ⟨h.2.2.1, h1⟩, h.2.2.2⟩
    | exact ⟨h.1, h.2.1, h.2.2.1, h.2.2.2, h1⟩
    | exact ⟨h.1, ⟨h.2.1, h1⟩, h.2.2⟩
    | exact ⟨⟨h.1.1, ⟨h.1.2.1, h1⟩, h.1.2.2⟩, h.2⟩

/-! ### Process prefetch -/

/-- No restore is under way in a process prefetch, nor in its worker, and the buffer is within its bound. -/
def ProcTame {c : ConcIter α} (size : Nat) (Q : c.S → Prop) (s : ProcState c) : Prop :=
  s.reqs = [] ∧ s.buf.length ≤ size ∧ (∀ ck, s.pc ≠ .set1 ck ∧ s.pc ≠ .set2 ck) ∧
  ∀ w, s.wrk = some w → Q w.cs ∧ w.pc ≠ .applying ∧ ∀ ck, w.pc ≠ .mark ck ∧ w.pc ≠ .apply ck

theorem process_tame {c : ConcIter α} {Q : c.S → Prop} {size : Nat} {keep : Bool} (h : Tame c Q) :
    Tame (processOver size keep c) (ProcTame size Q) := by
  constructor
  · exact ⟨rfl, Nat.zero_le _, fun ck => ⟨by simp [processOver], by simp [processOver]⟩, fun w hw => by cases hw⟩
  · rintro s t ⟨h1, h2, h3, h4⟩ hs
    cases hs with
    | below w t hw ht =>
      obtain ⟨g1, g2⟩ := h4 w hw
      refine ⟨h1, h2, h3, ?_⟩
      rintro _ ⟨⟩
      exact ⟨h.step g1 ht, g2⟩
    | topStop w hw _ _ =>
      obtain ⟨g1, g2⟩ := h4 w hw
      refine ⟨h1, h2, h3, ?_⟩
      rintro _ ⟨⟩
      exact ⟨g1, by simp, fun ck => by simp⟩
    | topTake w hw _ _ _ =>
      obtain ⟨g1, g2⟩ := h4 w hw
      refine ⟨h1, h2, h3, ?_⟩
      rintro _ ⟨⟩
      exact ⟨g1, by simp, fun ck => by simp⟩
    | topWork w hw _ _ _ _ =>
      obtain ⟨g1, g2⟩ := h4 w hw
      refine ⟨h1, h2, h3, ?_⟩
      rintro _ ⟨⟩
      exact ⟨g1, by simp, fun ck => by simp⟩
    | take w n ck cks _ _ _ hr =>
      rw [h1] at hr
      cases hr
    | takeNone w hw _ _ =>
      obtain ⟨g1, g2⟩ := h4 w hw
      refine ⟨h1, h2, h3, ?_⟩
      rintro _ ⟨⟩
      exact ⟨g1, by simp, fun ck => by simp⟩
    | mark w ck hw hp _ => exact absurd hp ((h4 w hw).2.2 ck).1
    | markStop w ck hw hp _ => exact absurd hp ((h4 w hw).2.2 ck).1
    | apply w ck t hw hp _ => exact absurd hp ((h4 w hw).2.2 ck).2
    | applied w t hw hp _ => exact absurd hp (h4 w hw).2.1
    | workWait w hw _ _ =>
      obtain ⟨g1, g2⟩ := h4 w hw
      refine ⟨h1, h2, h3, ?_⟩
      rintro _ ⟨⟩
      exact ⟨g1, by simp, fun ck => by simp⟩
    | call w t hw _ _ ht =>
      obtain ⟨g1, g2⟩ := h4 w hw
      refine ⟨h1, h2, h3, ?_⟩
      rintro _ ⟨⟩
      exact ⟨h.call g1 ht, by simp, fun ck => by simp⟩
    | item w a t hw _ ht =>
      obtain ⟨g1, g2⟩ := h4 w hw
      refine ⟨h1, h2, h3, ?_⟩
      rintro _ ⟨⟩
      exact ⟨h.ret g1 ht, by simp, fun ck => by simp⟩
    | ended w t hw _ ht =>
      obtain ⟨g1, g2⟩ := h4 w hw
      refine ⟨h1, h2, h3, ?_⟩
      rintro _ ⟨⟩
      exact ⟨h.ret g1 ht, by simp, fun ck => by simp⟩
    | getState w a hw _ =>
      obtain ⟨g1, g2⟩ := h4 w hw
      refine ⟨h1, h2, h3, ?_⟩
      rintro _ ⟨⟩
      exact ⟨h.get g1, by simp, fun ck => by simp⟩
    | put w e hw _ hl =>
      obtain ⟨g1, g2⟩ := h4 w hw
      refine ⟨h1, by simp; omega, h3, ?_⟩
      rintro _ ⟨⟩
      exact ⟨g1, by simp, fun ck => by simp⟩
    | putStop w e hw _ _ =>
      obtain ⟨g1, g2⟩ := h4 w hw
      refine ⟨h1, h2, h3, ?_⟩
      rintro _ ⟨⟩
      exact ⟨g1, by simp, fun ck => by simp⟩
    | leave w e es hw _ hb =>
      refine ⟨h1, ?_, h3, h4⟩
      rw [hb] at h2
      simp at h2 ⊢
      omega
    | leaveEnd w hw _ =>
      obtain ⟨g1, g2⟩ := h4 w hw
      refine ⟨rfl, h2, h3, ?_⟩
      rintro _ ⟨⟩
      exact ⟨g1, by simp, fun ck => by simp⟩
    | nextOver _ _ => exact ⟨h1, h2, fun ck => by simp, h4⟩
    | start _ _ _ =>
      refine ⟨h1, h2, fun ck => by simp, ?_⟩
      rintro _ ⟨⟩
      exact ⟨h.init, by simp, fun ck => by simp⟩
    | wait w _ _ _ => exact ⟨h1, h2, fun ck => by simp, h4⟩
    | getMarker es _ hb =>
      refine ⟨h1, ?_, h3, h4⟩
      rw [hb] at h2
      simp at h2 ⊢
      omega
    | getStale e es _ hb _ _ =>
      refine ⟨h1, ?_, h3, h4⟩
      rw [hb] at h2
      simp at h2 ⊢
      omega
    | getElem a ck es _ hb _ =>
      refine ⟨h1, ?_, fun ck => by simp, h4⟩
      rw [hb] at h2
      simp at h2 ⊢
      omega
    | getOver es _ hb _ _ =>
      refine ⟨h1, ?_, fun ck => by simp, h4⟩
      rw [hb] at h2
      simp at h2 ⊢
      omega
    | getStop es _ hb _ _ =>
      refine ⟨h1, ?_, fun ck => by simp, h4⟩
      rw [hb] at h2
      simp at h2 ⊢
      omega
    | stop1 e es _ hb =>
      refine ⟨h1, ?_, h3, h4⟩
      rw [hb] at h2
      simp at h2 ⊢
      omega
    | stop1End _ => exact ⟨h1, h2, fun ck => by simp, h4⟩
    | stop2 j _ _ => exact ⟨by simp [h1], h2, fun ck => by simp, h4⟩
    | join w _ _ _ => exact ⟨h1, h2, fun ck => by simp, h4⟩
    | stop3 e es _ hb =>
      refine ⟨h1, ?_, h3, h4⟩
      rw [hb] at h2
      simp at h2 ⊢
      omega
    | stopped _ _ => exact ⟨h1, h2, fun ck => by simp, fun w hw => by cases hw⟩
    | setPut ck hp => exact absurd hp (h3 ck).1
    | setDone ck hp => exact absurd hp (h3 ck).2
  · rintro s t ⟨h1, h2, h3, h4⟩ ⟨-, rfl⟩
    exact ⟨h1, h2, fun ck => by simp, h4⟩
  · rintro s r t ⟨h1, h2, h3, h4⟩ ⟨-, rfl⟩
    exact ⟨h1, h2, fun ck => by simp, h4⟩
  · rintro s ⟨h1, h2, h3, h4⟩
    show ProcTame size Q (match s.state with
      | some ck => (s, ck)
      | none => ({ s with state := some (c.get c.init).2 }, (c.get c.init).2)).1
    cases s.state <;> exact ⟨h1, h2, h3, h4⟩

theorem procItems_length {C : Type} {x : Nat → Option α} {K : Nat → C → Prop} {n e : Nat} {es : List (ProcEntry α C)}
    (h : ProcItems x K n es e) : e = n + es.length := by
  induction es generalizing n with
  | nil => exact h.symm
  | cons b es ih =>
    cases b with
    | marker => exact h.elim
    | over => exact h.elim
    | elem b ck' =>
      have := ih h.2.2
      simp only [List.length_cons]
      omega

/-- What the worker has read: nothing before it is started. -/
def workerSrc {c : ConcIter α} (src : c.S → Nat) (s : ProcState c) : Nat :=
  match s.wrk with
  | none => 0
  | some w => src w.cs

theorem process_leads {c : ConcIter α} {x : Nat → Option α} {I : Nat → CMode → c.S → Prop} {K : Nat → c.C → Prop}
    {Q : c.S → Prop} {src : c.S → Nat} {most : Nat → Nat} {size : Nat} {keep : Bool} (hl : Leads x (Along I Q) src most) :
    Leads (c := processOver size keep c) x (Along (ProcInv false x I K) (ProcTame size Q)) (workerSrc src)
      (fun n => most (n + size + 1)) := by
  have base : ∀ {n s}, ProcBase false x I K n s → ProcTame size Q s → workerSrc src s ≤ most (n + size + 1) := by
    rintro n s hs ⟨h1, h2, h3, h4⟩
    unfold workerSrc
    cases hw : s.wrk with
    | none => exact Nat.zero_le _
    | some w =>
      obtain ⟨g1, g2, g3⟩ := h4 w hw
      obtain ⟨stale, tail, e, f1, f2, f3, f4⟩ := (aim_nil h1 hw (fun ck => (g3 ck).1)).1 (hs.aim.resolve_right (by simp))
      have he : e ≤ n + size := by
        have hlen : tail.length ≤ size := by
          rw [f1, List.length_append] at h2
          omega
        unfold ProcTail at f3
        split at f3
        · rcases f3 with ⟨b, rfl, f5⟩ | ⟨-, -, rfl⟩
          · have := procItems_length f5
            simp only [List.length_append, List.length_cons, List.length_nil] at hlen
            omega
          · omega
        · have := procItems_length f3
          omega
      unfold WorkerAt at f4
      rcases w with ⟨cs, exh, pc⟩
      dsimp only at f4 g1 g2 g3 ⊢
      cases pc
      case top => exact (hl.idle ⟨f4.1, g1⟩).trans (hl.mono (by omega))
      case take => exact (hl.idle ⟨f4.1, g1⟩).trans (hl.mono (by omega))
      case work => exact (hl.idle ⟨f4.1, g1⟩).trans (hl.mono (by omega))
      case mark ck => exact absurd rfl (g3 ck).1
      case apply ck => exact absurd rfl (g3 ck).2
      case applying => exact absurd rfl g2
      case reading =>
        have := (nextPos_le x e).2
        exact (hl.next ⟨f4.2, g1⟩).trans (hl.mono (by omega))
      case got a => exact (hl.idle ⟨f4.2.2, g1⟩).trans (hl.mono (by omega))
      case put en =>
        cases en with
        | marker => exact f4.elim
        | elem a ck => exact (hl.idle ⟨f4.2.2.2, g1⟩).trans (hl.mono (by omega))
        | over => exact (hl.idle ⟨f4.2.2, g1⟩).trans (hl.mono (by omega))
      case leaving => exact f4.elim
      case exited => exact f4.elim
  have halt : ∀ {n s}, Halting x I K n s → ProcTame size Q s → workerSrc src s ≤ most (n + size + 1) := by
    rintro n s hs ⟨h1, h2, h3, h4⟩
    obtain ⟨w, hw, -, hi, -⟩ := hs.wrk
    unfold workerSrc
    rw [hw]
    exact (hl.idle ⟨hi, (h4 w hw).1⟩).trans (hl.mono (by omega))
  constructor
  · intro a b hab
    exact hl.mono (by omega)
  · rintro n s ⟨hs, hq⟩
    unfold ProcInv at hs
    split at hs <;> first | exact base hs hq | (rename_i hm; cases hm) | exact hs.elim
  · rintro n s ⟨hs, hq⟩
    have hn := nextPos_le x n
    unfold ProcInv at hs
    split at hs
    case h_2 => exact (base hs hq).trans (hl.mono (by omega))
    case h_3 => exact (base hs.1 hq).trans (hl.mono (by omega))
    case h_4 => exact base hs.2 hq
    case h_5 => exact (halt hs hq).trans (hl.mono (by omega))
    case h_6 => exact (halt hs hq).trans (hl.mono (by omega))
    case h_7 => exact (halt hs hq).trans (hl.mono (by omega))
    case h_8 => exact (halt hs.1 hq).trans (hl.mono (by omega))
    all_goals first | exact hs.elim | (rename_i hm; cases hm)

/-! ### Transformations of several inputs -/

section
variable {n : Nat} {T : MultiTrans n α β} {c : Fin n → ConcIter α} {x : Fin n → Nat → Option α} {y : Nat → Option β}
  {I : (i : Fin n) → Nat → CMode → (c i).S → Prop} {K : (i : Fin n) → Nat → (c i).C → Prop}
  {At : Nat → (Fin n → Nat) → T.L → Prop} {Q : (i : Fin n) → (c i).S → Prop}

/-- No restore is under way in a transformation of several inputs, nor in an input. -/
def MtTame (Q : (i : Fin n) → (c i).S → Prop) (s : MtState T c) : Prop :=
  (∀ i, Q i (s.cs i)) ∧ match s.pc with
    | .setPar _ _ => False
    | .setting _ _ => False
    | .setDone => False
    | _ => True

theorem all_update {cs : (i : Fin n) → (c i).S} (h : ∀ i, Q i (cs i)) {i : Fin n} {u : (c i).S} (hu : Q i u) :
    ∀ j, Q j (Function.update cs i u j) := by
  intro j
  by_cases hj : j = i
  · subst hj
    rw [Function.update_self]
    exact hu
  · rw [Function.update_of_ne hj]
    exact h j

theorem mtGoto_tame {s : MtState T c} (h : ∀ i, Q i (s.cs i)) (r) : MtTame Q (s.goto r) := by
  rcases r with ⟨i, k⟩ | ⟨r, l⟩ <;> exact ⟨h, trivial⟩

theorem multi_tame (h : ∀ i, Tame (c i) (Q i)) : Tame (multiOver T c) (MtTame Q) := by
  constructor
  · exact ⟨fun i => (h i).init, trivial⟩
  · rintro s t ⟨h1, h2⟩ hs
    cases hs with
    | below i t ht => exact ⟨all_update h1 ((h i).step (h1 i) ht), h2⟩
    | ask i k t _ ht => exact ⟨all_update h1 ((h i).call (h1 i) ht), trivial⟩
    | got i k r t _ ht => exact mtGoto_tame (all_update h1 ((h i).ret (h1 i) ht)) _
    | setPar i ck t hp _ _ => rw [hp] at h2; exact h2.elim
    | setBack i ck t hp _ => rw [hp] at h2; exact h2.elim
    | setSkip i ck hp _ => rw [hp] at h2; exact h2.elim
    | setEnd ck hp => rw [hp] at h2; exact h2.elim
  · rintro s t ⟨h1, h2⟩ ⟨-, rfl⟩
    exact mtGoto_tame h1 _
  · rintro s r t ⟨h1, h2⟩ ⟨-, rfl⟩
    exact ⟨h1, trivial⟩
  · rintro s ⟨h1, h2⟩
    exact ⟨fun i => (h i).get (h1 i), h2⟩

theorem mtEval_le {d i k p r q l} (h : MtEval T x d i k p r q l) :
    (∀ j, p j ≤ q j) ∧ nextPos (x i) (p i) ≤ q i := by
  have hup : ∀ (p : Fin n → Nat) i j, p j ≤ Function.update p i (nextPos (x i) (p i)) j := by
    intro p i j
    by_cases hj : j = i
    · subst hj
      rw [Function.update_self]
      exact (nextPos_le _ _).1
    · rw [Function.update_of_ne hj]
  induction h with
  | last _ => exact ⟨fun j => hup _ _ j, by rw [Function.update_self]⟩
  | @more d i k p i' k' r q l _ _ ih =>
    refine ⟨fun j => (hup p i j).trans (ih.1 j), ?_⟩
    have := ih.1 i
    rw [Function.update_self] at this
    exact this

/-- A transformation of several inputs: `At m p l` bounds what the inputs have read at the positions `p`. -/
theorem multi_leads {src : (i : Fin n) → (c i).S → Nat} {most : Fin n → Nat → Nat} {bound : Nat → Nat}
    (hl : ∀ i, Leads (x i) (Along (I i) (Q i)) (src i) (most i)) (hb : ∀ {a b}, a ≤ b → bound a ≤ bound b)
    (hat : ∀ {m p l}, At m p l → ∑ i, most i (p i) ≤ bound m) :
    Leads (c := multiOver T c) y (Along (fun m md s => ∃ w, MtInv x y I K At m md w s) (MtTame Q))
      (fun s => ∑ i, src i (s.cs i)) bound := by
  have idle : ∀ {p : Fin n → Nat} {cs : (i : Fin n) → (c i).S}, (∀ i, I i (p i) .idle (cs i)) → (∀ i, Q i (cs i)) →
      ∑ i, src i (cs i) ≤ ∑ i, most i (p i) :=
    fun h hq => Finset.sum_le_sum fun i _ => (hl i).idle ⟨h i, hq i⟩
  constructor
  · exact hb
  · rintro m s ⟨⟨w, hs⟩, hq, -⟩
    rcases s with ⟨cs, loc, pc⟩
    cases pc <;> try exact hs.elim
    obtain ⟨-, p, h1, h2⟩ := hs
    exact (idle h2 hq).trans (hat h1)
  · rintro m s ⟨⟨w, hs⟩, hq, -⟩
    rcases s with ⟨cs, loc, pc⟩
    cases pc <;> try exact hs.elim
    · obtain ⟨d, p, q, l, -, h1, h2, h3⟩ := hs
      refine ((idle h3 hq).trans ?_).trans (hat h2)
      exact Finset.sum_le_sum fun i _ => (hl i).mono ((mtEval_le h1).1 i)
    · rename_i i k
      obtain ⟨d, p, q, l, -, h1, h2, h3, h4⟩ := hs
      refine le_trans ?_ (hat h2)
      refine Finset.sum_le_sum fun j _ => ?_
      by_cases hj : j = i
      · subst hj
        exact ((hl j).next ⟨h3, hq j⟩).trans ((hl j).mono (mtEval_le h1).2)
      · exact ((hl j).idle ⟨h4 j hj, hq j⟩).trans ((hl j).mono ((mtEval_le h1).1 j))
    · obtain ⟨-, -, p, h1, h2⟩ := hs
      exact (idle h2 hq).trans (hat h1)

/-- The transformation returns after each element that it is given. -/
structure OneForOne (T : MultiTrans n α β) : Prop where
  given : ∀ i k a, ∃ b l, T.resume i k (some a) = .inr (some b, l)

theorem mtEval_sum (hT : OneForOne T) {d i k p r q l} (h : MtEval T x d i k p r q l) :
    ∑ j, q j ≤ ∑ j, p j + if r.isSome then 1 else 0 := by
  have hup : ∀ (p : Fin n → Nat) i e, e ≤ p i + 1 → ∑ j, Function.update p i e j ≤ ∑ j, p j + 1 := by
    intro p i e he
    rw [Finset.sum_update_of_mem (Finset.mem_univ i), ← Finset.sum_erase_add _ _ (Finset.mem_univ i), Finset.sdiff_singleton_eq_erase]
    omega
  have hsame : ∀ (p : Fin n → Nat) i, x i (p i) = none → Function.update p i (nextPos (x i) (p i)) = p := by
    intro p i hx
    have : nextPos (x i) (p i) = p i := by simp [nextPos, hx]
    rw [this, Function.update_eq_self]
  induction h with
  | @last i k p r l hr =>
    cases hx : x i (p i) with
    | none => rw [hsame p i hx]; omega
    | some a =>
      obtain ⟨b, l', hb⟩ := hT.given i k a
      rw [hx, hb] at hr
      cases hr
      exact hup p i _ (nextPos_le _ _).2
  | @more d i k p i' k' r q l hr _ ih =>
    cases hx : x i (p i) with
    | none => rw [hsame p i hx] at ih; exact ih
    | some a =>
      obtain ⟨b, l', hb⟩ := hT.given i k a
      rw [hx, hb] at hr
      cases hr

/-- For such a transformation, the inputs have together given out no more than the transformation has. -/
theorem oneForOne_computes (hT : OneForOne T) (h : MultiComputes T x y At) :
    MultiComputes T x y (fun m p l => At m p l ∧ ∑ i, p i ≤ m) := by
  constructor
  · exact ⟨h.init, by simp⟩
  · rintro m p l ⟨h1, h2⟩
    have hn := nextPos_le y m
    rcases h.start h1 with ⟨l', h3, h4⟩ | ⟨i, k, d, q, l', h3, h4, h5⟩
    · exact Or.inl ⟨l', h3, h4, by omega⟩
    · refine Or.inr ⟨i, k, d, q, l', h3, h4, h5, ?_⟩
      have := mtEval_sum hT h4
      unfold nextPos
      cases hy : y m with
      | none => rw [hy] at this; simp at this; dsimp only; omega
      | some b => rw [hy] at this; simp at this; dsimp only; omega
  · rintro m p l ⟨h1, h2⟩
    exact ⟨h.onGet h1, h2⟩
  · rintro m p l ⟨h1, h2⟩
    refine ⟨h.sets h1, le_trans (Finset.sum_le_sum fun i _ => ?_) h2⟩
    split <;> omega

end

theorem mixTrans_oneForOne (sel : Nat → Fin n) : OneForOne (mixTrans (α := α) n sel) :=
  ⟨fun _ _ a => ⟨a, _, rfl⟩⟩

theorem ilTrans_oneForOne : OneForOne (ilTrans (α := α) n L) :=
  ⟨fun _ _ a => ⟨a, _, rfl⟩⟩

/-- A `zip` of datasets of one length reads them in step, also with `strict = False`. -/
theorem zipTrans_in_step {x : Fin (n + 1) → Nat → Option α} (strict : Bool) (h : EqualLengths x) :
    MultiComputes (zipTrans n strict) x (streamZip x) (fun m p _ => ∀ i, p i = m) := by
  refine ⟨fun _ => rfl, ?_, fun h => h, fun h => h⟩
  rintro m p ⟨⟩ hall
  right
  by_cases hsome : ∀ i, (x i m).isSome
  · have hy : streamZip x m = some ((List.finRange (n + 1)).filterMap (fun i => x i m)) := if_pos hsome
    have := zip_eval_all (strict := strict) (x := x) n 0 [] p (by simp) (by intro j _; rw [hall j]; exact hsome j)
    refine ⟨0, some [], n + 1, fun j => p j + 1, (), rfl, ?_, ?_⟩
    · rw [hy]
      simpa [hall] using this
    · intro i
      simp [nextPos, hy, hall]
  · have hy : streamZip x m = none := if_neg hsome
    have hnp : nextPos (streamZip x) m = m := by simp [nextPos, hy]
    have hnone : ∀ i, x i (p i) = none := by
      intro i
      rw [hall i]
      simp only [not_forall] at hsome
      obtain ⟨j, hj⟩ := hsome
      rw [← h i j m] at hj
      simpa using hj
    rw [hnp, hy]
    cases strict with
    | true =>
      obtain ⟨d', hd⟩ := zip_eval_first hnone
      exact ⟨0, some [], d', p, (), rfl, hd, hall⟩
    | false =>
      have hr : (zipTrans (α := α) n false).resume 0 (some []) (x 0 (p 0)) = .inr (none, ()) := by
        rw [hnone 0]
        rfl
      have hu : Function.update p 0 (nextPos (x 0) (p 0)) = p := by
        have : nextPos (x 0) (p 0) = p 0 := by simp [nextPos, hnone 0]
        rw [this, Function.update_eq_self]
      have := MtEval.last (T := zipTrans (α := α) n false) (x := x) (k := (some [] : Option (List α))) hr
      rw [hu] at this
      exact ⟨0, some [], 1, p, (), rfl, this, hall⟩

end Grain
