import Verif.Stack.RaiseLemmas
/-
A thread prefetch over an iterator that follows a stream of outcomes follows it too.
-/
namespace Grain
namespace Raise

section
variable {c : ConcIter (Py α)} {x : Nat → Option (Py α)} {I : Nat → CMode → c.S → Prop} {K : Nat → c.C → Prop} {size : Nat}

/-- A checkpoint that may be taken at position `n`. -/
def Lagged {C : Type} (x : Nat → Option (Py α)) (K : Nat → C → Prop) (n : Nat) (ck : C) : Prop := ∃ k, Lagging x k n ∧ K k ck

theorem Lagged.next {C : Type} {K : Nat → C → Prop} {n : Nat} {ck : C} {e : Option Err} (h : Lagged x K n ck) (hx : x n = raised e) :
    Lagged x K (nextPos x n) ck := by
  cases e with
  | none =>
    have : nextPos x n = n := by simp [nextPos, hx, raised]
    rw [this]
    exact h
  | some e =>
    have : nextPos x n = n + 1 := by simp [nextPos, hx, raised]
    rw [this]
    obtain ⟨k, h1, h2⟩ := h
    refine ⟨k, h1.trans ⟨by omega, fun j hj hn => ?_⟩, h2⟩
    have : j = n := by omega
    rw [this]
    exact ⟨e, hx⟩

/-- The entries are the elements `n, n + 1, …, e - 1` of the stream, each with a checkpoint after it. -/
def Items (x : Nat → Option (Py α)) (K : Nat → C → Prop) : Nat → List (Except (Option Err) (α × C)) → Nat → Prop
  | n, [], e => n = e
  | n, .ok (a, ck) :: es, e => x n = some (.ok a) ∧ Lagged x K (n + 1) ck ∧ Items x K (n + 1) es e
  | _, .error _ :: _, _ => False

theorem Items.snoc {C : Type} {K : Nat → C → Prop} {n e : Nat} {es : List (Except (Option Err) (α × C))} {a : α} {ck : C}
    (h : Items x K n es e) (hx : x e = some (.ok a)) (hk : Lagged x K (e + 1) ck) : Items x K n (es ++ [.ok (a, ck)]) (e + 1) := by
  induction es generalizing n with
  | nil => cases h; exact ⟨hx, hk, rfl⟩
  | cons b es ih =>
    rcases b with _ | ⟨b, ck'⟩
    · exact h.elim
    · exact ⟨h.1, h.2.1, ih h.2.2⟩

/-- Working order: the buffer continues the stream where the user is, the parent where the buffer ends. -/
def Running (x : Nat → Option (Py α)) (I : Nat → CMode → c.S → Prop) (K : Nat → c.C → Prop) (n : Nat) (s : PrefState c) :
    Prop :=
  match s.thr with
  | none => s.buf = [] ∧ I n .idle s.cs
  | some .check => s.flag = false ∧ ∃ e, Items x K n s.buf e ∧ I e .idle s.cs
  | some .call => s.flag = false ∧ ∃ e, Items x K n s.buf e ∧ I e .idle s.cs
  | some .reading => s.flag = false ∧ ∃ e, Items x K n s.buf e ∧ I e .next s.cs
  | some (.got a) => s.flag = false ∧ ∃ e, Items x K n s.buf e ∧ x e = some (.ok a) ∧ I (e + 1) .idle s.cs
  | some (.put (.ok (a, ck))) =>
    s.flag = false ∧ ∃ e, Items x K n s.buf e ∧ x e = some (.ok a) ∧ Lagged x K (e + 1) ck ∧ I (e + 1) .idle s.cs
  | some (.put (.error r)) =>
    s.flag = false ∧ ∃ e, Items x K n s.buf e ∧ x e = raised r ∧ I (nextPos x e) .idle s.cs
  | some .exited => 
    s.flag = false ∧ ∃ e b r, s.buf = b ++ [.error r] ∧ Items x K n b e ∧ x e = raised r ∧ I (nextPos x e) .idle s.cs

/-- The parent is at some position, in a call of the prefetch thread or not. -/
def Busy (I : Nat → CMode → c.S → Prop) (s : PrefState c) : Prop :=
  match s.thr with
  | some .reading => ∃ e, I e .next s.cs
  | _ => ∃ e, I e .idle s.cs

/-- At an exception, the thread finished. -/
def AtEnd (x : Nat → Option (Py α)) (I : Nat → CMode → c.S → Prop) (K : Nat → c.C → Prop) (n : Nat) (e : Option Err)
    (s : PrefState c) : Prop :=
  x n = raised e ∧ I (nextPos x n) .idle s.cs ∧ Lagged x K n s.state ∧ s.thr = some .exited

def PrefInv (x : Nat → Option (Py α)) (I : Nat → CMode → c.S → Prop) (K : Nat → c.C → Prop) (n : Nat) (m : CMode)
    (s : PrefState c) : Prop :=
  match s.pc, m with
  | .idle, .idle => Running x I K n s ∧ Lagged x K n s.state
  | .enter, .next => Running x I K n s ∧ Lagged x K n s.state
  | .take, .next => Running x I K n s ∧ Lagged x K n s.state ∧ s.thr ≠ none
  | .sync, .next => s.thr = none ∧ s.buf = [] ∧ I n .next s.cs ∧ Lagged x K n s.state
  | .syncGot a, .next => s.thr = none ∧ s.buf = [] ∧ x n = some (.ok a) ∧ I (n + 1) .idle s.cs
  | .done r, .next => r = x n ∧ Running x I K (nextPos x n) s ∧ Lagged x K (nextPos x n) s.state
  | .stop (.error e), .next => AtEnd x I K n e s
  | .clear (.error e), .next => AtEnd x I K n e s ∧ s.flag = true
  | .join (.error e), .next => AtEnd x I K n e s
  | .clearAgain (.error e), .next => x n = raised e ∧ I (nextPos x n) .idle s.cs ∧ Lagged x K n s.state ∧ s.thr = none
  | .stop (.ok ck), .set => K n ck ∧ Busy I s ∧ (s.thr = none → s.buf = [])
  | .clear (.ok ck), .set => K n ck ∧ Busy I s ∧ s.thr ≠ none ∧ s.flag = true
  | .join (.ok ck), .set =>
    K n ck ∧ Busy I s ∧ s.thr ≠ none ∧ s.flag = true ∧ (s.thr = some .check ∨ s.thr = some .exited ∨ s.buf = [])
  | .clearAgain (.ok ck), .set => K n ck ∧ s.thr = none ∧ ∃ e, I e .idle s.cs
  | .setPar ck, .set => K n ck ∧ s.thr = none ∧ s.buf = [] ∧ ∃ e, I e .idle s.cs
  | .setting, .set => s.thr = none ∧ s.buf = [] ∧ I n .set s.cs
  | .setGot, .set => s.thr = none ∧ s.buf = [] ∧ I n .idle s.cs
  | .setDone, .set => s.thr = none ∧ s.buf = [] ∧ I n .idle s.cs ∧ Lagged x K n s.state
  | _, _ => False

/-- The buffer never holds more than `size` entries; without a buffer there is no thread. -/
def Bounded (size : Nat) (s : PrefState c) : Prop := s.buf.length ≤ size ∧ (size = 0 → s.thr = none)

/-! #### The rank of a state -/

def UserPc.phase {α C : Type} : UserPc α C → Nat
  | .idle => 0
  | .done _ => 0
  | .setDone => 0
  | .setGot => 1
  | .syncGot _ => 1
  | .setting => 2
  | .sync => 2
  | .setPar _ => 3
  | .clearAgain _ => 4
  | .join _ => 5
  | .clear _ => 6
  | .stop _ => 7
  | .take => 8
  | .enter => 9

def PrefPc.stage {α C : Type} : Option (PrefPc α C) → Nat
  | none => 0
  | some .exited => 0
  | some (.put _) => 1
  | some (.got _) => 2
  | some .reading => 3
  | some .call => 4
  | some .check => 5

def PrefPc.lastStage {α C : Type} : Option (PrefPc α C) → Nat
  | none => 0
  | some .exited => 0
  | some .check => 1
  | some (.put _) => 3
  | some (.got _) => 4
  | some .reading => 5
  | some .call => 6

def PrefState.pot (size : Nat) (s : PrefState c) : Nat :=
  if s.pc.phase = 4 ∨ s.pc.phase = 6 then s.buf.length + PrefPc.lastStage s.thr
  else 6 * (size - s.buf.length) + PrefPc.stage s.thr

def PrefState.rank (size : Nat) (s : PrefState c) : Nat := s.pc.phase * (7 * size + 20) + s.pot size

theorem stage_le {α C : Type} (o : Option (PrefPc α C)) : PrefPc.stage o ≤ 5 := by
  rcases o with _ | (_ | _ | _ | _ | _ | _) <;> simp [PrefPc.stage]

theorem lastStage_le {α C : Type} (o : Option (PrefPc α C)) : PrefPc.lastStage o ≤ 6 := by
  rcases o with _ | (_ | _ | _ | _ | _ | _) <;> simp [PrefPc.lastStage]

theorem pot_lt {s : PrefState c} (h : Bounded size s) : s.pot size < 7 * size + 20 := by
  have h1 := stage_le s.thr
  have h2 := lastStage_le s.thr
  have h3 := h.1
  unfold PrefState.pot
  split <;> omega

theorem rank_lt_of_phase {s t : PrefState c} (ht : Bounded size t) (h : t.pc.phase < s.pc.phase) :
    t.rank size < s.rank size := by
  have h1 := pot_lt ht
  have h2 : (t.pc.phase + 1) * (7 * size + 20) ≤ s.pc.phase * (7 * size + 20) := Nat.mul_le_mul_right _ h
  unfold PrefState.rank
  rw [Nat.add_mul] at h2
  omega

theorem rank_lt_of_pot {s t : PrefState c} (h1 : t.pc = s.pc) (h : t.pot size < s.pot size) :
    t.rank size < s.rank size := by
  unfold PrefState.rank
  rw [h1]
  omega

/-! #### Steps -/

theorem bounded_step {s t : PrefState c} (hs : Bounded size s) (ht : PrefStep size c s t) : Bounded size t := by
  obtain ⟨h1, h2⟩ := hs
  cases ht <;> refine ⟨?_, ?_⟩ <;> (try simp_all) <;> (try omega)

theorem running_below (h : Follows c x I K) {n : Nat} {s : PrefState c} (hs : Running x I K n s) {t : c.S}
    (ht : c.step s.cs t) : Running x I K n { s with cs := t } := by
  rcases s with ⟨cs, state, buf, thr, flag, pc⟩
  dsimp only at ht
  rcases thr with _ | (_ | _ | _ | _ | (_ | ⟨a, ck⟩) | _) <;> simp only [Running] at hs ⊢
  · exact ⟨hs.1, h.step hs.2 ht⟩
  · obtain ⟨h1, e, h2, h3⟩ := hs; exact ⟨h1, e, h2, h.step h3 ht⟩
  · obtain ⟨h1, e, h2, h3⟩ := hs; exact ⟨h1, e, h2, h.step h3 ht⟩
  · obtain ⟨h1, e, h2, h3⟩ := hs; exact ⟨h1, e, h2, h.step h3 ht⟩
  · obtain ⟨h1, e, h2, h3, h4⟩ := hs; exact ⟨h1, e, h2, h3, h.step h4 ht⟩
  · obtain ⟨h1, e, h2, h3, h4⟩ := hs; exact ⟨h1, e, h2, h3, h.step h4 ht⟩
  · obtain ⟨h1, e, h2, h3, h4, h5⟩ := hs; exact ⟨h1, e, h2, h3, h4, h.step h5 ht⟩
  · obtain ⟨h1, e, b, r, h2, h3, h4, h5⟩ := hs; exact ⟨h1, e, b, r, h2, h3, h4, h.step h5 ht⟩

theorem busy_below (h : Follows c x I K) {s : PrefState c} (hs : Busy I s) {t : c.S}
    (ht : c.step s.cs t) : Busy I { s with cs := t } := by
  rcases s with ⟨cs, state, buf, thr, flag, pc⟩
  dsimp only at ht
  rcases thr with _ | (_ | _ | _ | _ | _ | _) <;> simp only [Busy] at hs ⊢ <;>
    (obtain ⟨e, h1⟩ := hs; exact ⟨e, h.step h1 ht⟩)

theorem prefInv_below (h : Follows c x I K) {n : Nat} {m : CMode} {s : PrefState c} (hs : PrefInv x I K n m s) {t : c.S}
    (ht : c.step s.cs t) : PrefInv x I K n m { s with cs := t } := by
  have hr : ∀ {k}, Running x I K k s → Running x I K k { s with cs := t } := fun hs => running_below h hs ht
  have hb : Busy I s → Busy I { s with cs := t } := fun hs => busy_below h hs ht
  have hi : ∀ {k l}, I k l s.cs → I k l t := fun hs => h.step hs ht
  clear ht
  revert hs hr hb hi
  rcases s with ⟨cs, state, buf, thr, flag, pc⟩
  dsimp only
  intro hs hr hb hi
  rcases pc with _ | _ | _ | _ | _ | (_ | _) | (_ | _) | (_ | _) | (_ | _) | _ | _ | _ | _ | _ <;>
    cases m <;> simp only [PrefInv, AtEnd] at hs ⊢
  · exact ⟨hr hs.1, hs.2⟩
  · exact ⟨hr hs.1, hs.2⟩
  · exact ⟨hr hs.1, hs.2⟩
  · exact ⟨hs.1, hs.2.1, hi hs.2.2.1, hs.2.2.2⟩
  · exact ⟨hs.1, hs.2.1, hs.2.2.1, hi hs.2.2.2⟩
  · exact ⟨hs.1, hi hs.2.1, hs.2.2⟩
  · exact ⟨hs.1, hb hs.2.1, hs.2.2⟩
  · exact ⟨⟨hs.1.1, hi hs.1.2.1, hs.1.2.2⟩, hs.2⟩
  · exact ⟨hs.1, hb hs.2.1, hs.2.2⟩
  · exact ⟨hs.1, hi hs.2.1, hs.2.2⟩
  · exact ⟨hs.1, hb hs.2.1, hs.2.2⟩
  · exact ⟨hs.1, hi hs.2.1, hs.2.2⟩
  · obtain ⟨h1, h2, e, h3⟩ := hs; exact ⟨h1, h2, e, hi h3⟩
  · exact ⟨hs.1, hr hs.2.1, hs.2.2⟩
  · obtain ⟨h1, h2, h3, e, h4⟩ := hs; exact ⟨h1, h2, h3, e, hi h4⟩
  · exact ⟨hs.1, hs.2.1, hi hs.2.2⟩
  · exact ⟨hs.1, hs.2.1, hi hs.2.2⟩
  · exact ⟨hs.1, hs.2.1, hi hs.2.2.1, hs.2.2.2⟩

/-- A step of the prefetch thread keeps the stream, and only gets closer to `buffer.put` or to its end. -/
structure ProdKeeps (size : Nat) (x : Nat → Option (Py α)) (I : Nat → CMode → c.S → Prop) (K : Nat → c.C → Prop)
    (s t : PrefState c) : Prop where
  pc : t.pc = s.pc
  state : t.state = s.state
  flag : t.flag = s.flag
  thr : s.thr ≠ none ∧ s.thr ≠ some .exited ∧ t.thr ≠ none
  run : ∀ {n}, Running x I K n s → Running x I K n t
  busy : Busy I s → Busy I t
  drained : s.flag = true → (s.thr = some .check ∨ s.thr = some .exited ∨ s.buf = []) →
    (t.thr = some .check ∨ t.thr = some .exited ∨ t.buf = [])
  pot : 6 * (size - t.buf.length) + PrefPc.stage t.thr < 6 * (size - s.buf.length) + PrefPc.stage s.thr
  last : s.flag = true → t.buf.length + PrefPc.lastStage t.thr < s.buf.length + PrefPc.lastStage s.thr

theorem prefInv_prod {n : Nat} {m : CMode} {s t : PrefState c} (hs : PrefInv x I K n m s) (hk : ProdKeeps size x I K s t) :
    PrefInv x I K n m t ∧ t.rank size < s.rank size := by
  obtain ⟨h1, h2, h3, h4, h5, h6, h7, h8, h9⟩ := hk
  have hrank : (s.pc.phase = 4 ∨ s.pc.phase = 6 → s.flag = true) → t.rank size < s.rank size := by
    intro hf
    refine rank_lt_of_pot h1 ?_
    unfold PrefState.pot
    rw [h1]
    split
    · exact h9 (hf ‹_›)
    · exact h8
  rcases s with ⟨cs, state, buf, thr, flag, pc⟩
  rcases t with ⟨cs', state', buf', thr', flag', pc'⟩
  dsimp only at h1 h2 h3 h4 h7 h8 h9 hrank
  subst h1 h2 h3
  rcases pc' with _ | _ | _ | _ | _ | (_ | _) | (_ | _) | (_ | _) | (_ | _) | _ | _ | _ | _ | _ <;>
    cases m <;> simp only [PrefInv, AtEnd] at hs ⊢
  · exact ⟨⟨h5 hs.1, hs.2⟩, hrank (by simp [UserPc.phase])⟩
  · exact ⟨⟨h5 hs.1, hs.2⟩, hrank (by simp [UserPc.phase])⟩
  · exact ⟨⟨h5 hs.1, hs.2.1, h4.2.2⟩, hrank (by simp [UserPc.phase])⟩
  · exact absurd hs.1 h4.1
  · exact absurd hs.1 h4.1
  · exact absurd hs.2.2.2 h4.2.1
  · exact ⟨⟨hs.1, h6 hs.2.1, fun h => absurd h h4.2.2⟩, hrank (by simp [UserPc.phase])⟩
  · exact absurd hs.1.2.2.2 h4.2.1
  · exact ⟨⟨hs.1, h6 hs.2.1, h4.2.2, hs.2.2.2⟩, hrank (fun _ => hs.2.2.2)⟩
  · exact absurd hs.2.2.2 h4.2.1
  · exact ⟨⟨hs.1, h6 hs.2.1, h4.2.2, hs.2.2.2.1, h7 hs.2.2.2.1 hs.2.2.2.2⟩, hrank (by simp [UserPc.phase])⟩
  · exact absurd hs.2.2.2 h4.1
  · exact absurd hs.2.1 h4.1
  · exact ⟨⟨hs.1, h5 hs.2.1, hs.2.2⟩, hrank (by simp [UserPc.phase])⟩
  · exact absurd hs.2.1 h4.1
  · exact absurd hs.1 h4.1
  · exact absurd hs.1 h4.1
  · exact absurd hs.1 h4.1

theorem prod_check (h : Follows c x I K) {s : PrefState c} (h1 : s.thr = some .check) :
    ProdKeeps size x I K s { s with thr := some (if s.flag then .exited else .call) } := by
  rcases s with ⟨cs, state, buf, thr, flag, pc⟩
  dsimp only at h1
  subst h1
  constructor <;> cases flag <;> simp [Running, Busy, PrefPc.stage, PrefPc.lastStage]

theorem prod_call (h : Follows c x I K) {s : PrefState c} {t} (h1 : s.thr = some .call) (ht : c.call s.cs t) :
    ProdKeeps size x I K s { s with cs := t, thr := some .reading } := by
  rcases s with ⟨cs, state, buf, thr, flag, pc⟩
  dsimp only at h1 ht
  subst h1
  constructor <;> try simp [PrefPc.stage, PrefPc.lastStage]
  · rintro n ⟨h1, e, h2, h3⟩
    exact ⟨h1, e, h2, h.call h3 ht⟩
  · rintro ⟨e, h1⟩
    exact ⟨e, h.call h1 ht⟩

theorem prod_item (h : Follows c x I K) {s : PrefState c} {a t} (h1 : s.thr = some .reading) (ht : c.ret s.cs (some (.ok a)) t) :
    ProdKeeps size x I K s { s with cs := t, thr := some (.got a) } := by
  rcases s with ⟨cs, state, buf, thr, flag, pc⟩
  dsimp only at h1 ht
  subst h1
  constructor <;> try simp [PrefPc.stage, PrefPc.lastStage]
  · rintro n ⟨h1, e, h2, h3⟩
    obtain ⟨h4, h5⟩ := h.ret h3 ht
    simp only [nextPos, ← h4] at h5
    exact ⟨h1, e, h2, h4.symm, h5⟩
  · rintro ⟨e, h1⟩
    exact ⟨_, (h.ret h1 ht).2⟩

theorem prod_over (h : Follows c x I K) {s : PrefState c} {e t} (h1 : s.thr = some .reading) (ht : c.ret s.cs (raised e) t) :
    ProdKeeps size x I K s { s with cs := t, thr := some (.put (.error e)) } := by
  rcases s with ⟨cs, state, buf, thr, flag, pc⟩
  dsimp only at h1 ht
  subst h1
  constructor <;> try simp [PrefPc.stage, PrefPc.lastStage]
  · rintro n ⟨h1, e, h2, h3⟩
    obtain ⟨h4, h5⟩ := h.ret h3 ht
    exact ⟨h1, e, h2, h4.symm, h5⟩
  · rintro ⟨e, h1⟩
    exact ⟨_, (h.ret h1 ht).2⟩

theorem prod_getState (h : Follows c x I K) {s : PrefState c} {a} (h1 : s.thr = some (.got a)) :
    ProdKeeps size x I K s { s with cs := (c.get s.cs).1, thr := some (.put (.ok (a, (c.get s.cs).2))) } := by
  rcases s with ⟨cs, state, buf, thr, flag, pc⟩
  dsimp only at h1
  subst h1
  constructor <;> try simp [PrefPc.stage, PrefPc.lastStage]
  · rintro n ⟨h1, e, h2, h3, h4⟩
    exact ⟨h1, e, h2, h3, (h.get h4).2, (h.get h4).1⟩
  · rintro ⟨e, h1⟩
    exact ⟨e, (h.get h1).1⟩

theorem prod_put {s : PrefState c} {a} (h1 : s.thr = some (.put (.ok a))) (ht : s.buf.length < size) :
    ProdKeeps size x I K s { s with buf := s.buf ++ [.ok a], thr := some .check } := by
  rcases s with ⟨cs, state, buf, thr, flag, pc⟩
  dsimp only at h1 ht
  subst h1
  rcases a with ⟨a, ck⟩
  constructor <;> (try simp [PrefPc.stage, PrefPc.lastStage]) <;> (try omega)
  · rintro n ⟨h1, e, h2, h3, h4, h5⟩
    exact ⟨h1, e + 1, h2.snoc h3 h4, h5⟩
  · rintro ⟨e, h1⟩
    exact ⟨e, h1⟩

theorem prod_putStop {s : PrefState c} {e} (h1 : s.thr = some (.put (.error e))) (ht : s.buf.length < size) :
    ProdKeeps size x I K s { s with buf := s.buf ++ [.error e], thr := some .exited } := by
  rcases s with ⟨cs, state, buf, thr, flag, pc⟩
  dsimp only at h1 ht
  subst h1
  constructor <;> (try simp [PrefPc.stage, PrefPc.lastStage]) <;> (try omega)
  · rintro n ⟨h1, e, h2, h3, h4⟩
    exact ⟨h1, e, buf, _, rfl, h2, h3, h4⟩
  · rintro ⟨e, h1⟩
    exact ⟨e, h1⟩

theorem running_head {n : Nat} {s : PrefState c} {a : α} {ck : c.C} {b} (hb : s.buf = .ok (a, ck) :: b)
    (hs : Running x I K n s) : x n = some (.ok a) ∧ Lagged x K (n + 1) ck ∧
      ∀ state pc, Running x I K (n + 1) { s with buf := b, state := state, pc := pc } := by
  rcases s with ⟨cs, state, buf, thr, flag, pc⟩
  dsimp only at hb
  subst hb
  rcases thr with _ | (_ | _ | _ | _ | (_ | ⟨a, ck⟩) | _) <;> simp only [Running] at hs ⊢
  · exact absurd hs.1 (by simp)
  · obtain ⟨h1, e, h2, h3⟩ := hs; exact ⟨h2.1, h2.2.1, fun _ _ => ⟨h1, e, h2.2.2, h3⟩⟩
  · obtain ⟨h1, e, h2, h3⟩ := hs; exact ⟨h2.1, h2.2.1, fun _ _ => ⟨h1, e, h2.2.2, h3⟩⟩
  · obtain ⟨h1, e, h2, h3⟩ := hs; exact ⟨h2.1, h2.2.1, fun _ _ => ⟨h1, e, h2.2.2, h3⟩⟩
  · obtain ⟨h1, e, h2, h3⟩ := hs; exact ⟨h2.1, h2.2.1, fun _ _ => ⟨h1, e, h2.2.2, h3⟩⟩
  · obtain ⟨h1, e, h2, h3⟩ := hs; exact ⟨h2.1, h2.2.1, fun _ _ => ⟨h1, e, h2.2.2, h3⟩⟩
  · obtain ⟨h1, e, h2, h3⟩ := hs; exact ⟨h2.1, h2.2.1, fun _ _ => ⟨h1, e, h2.2.2, h3⟩⟩
  · obtain ⟨h1, e, b', r, h2, h3, h4⟩ := hs
    rcases b' with _ | ⟨d, b'⟩
    · simp at h2
    · simp only [List.cons_append, List.cons.injEq] at h2
      obtain ⟨rfl, rfl⟩ := h2
      exact ⟨h3.1, h3.2.1, fun _ _ => ⟨h1, e, b', r, rfl, h3.2.2, h4⟩⟩

theorem running_headStop {n : Nat} {s : PrefState c} {r b} (hb : s.buf = .error r :: b) (hs : Running x I K n s) :
    x n = raised r ∧ s.thr = some .exited ∧ b = [] ∧ I (nextPos x n) .idle s.cs := by
  rcases s with ⟨cs, state, buf, thr, flag, pc⟩
  dsimp only at hb
  subst hb
  rcases thr with _ | (_ | _ | _ | _ | (_ | ⟨a, ck⟩) | _) <;> simp only [Running] at hs ⊢
  · exact absurd hs.1 (by simp)
  · obtain ⟨h1, e, h2, h3⟩ := hs; exact h2.elim
  · obtain ⟨h1, e, h2, h3⟩ := hs; exact h2.elim
  · obtain ⟨h1, e, h2, h3⟩ := hs; exact h2.elim
  · obtain ⟨h1, e, h2, h3⟩ := hs; exact h2.elim
  · obtain ⟨h1, e, h2, h3⟩ := hs; exact h2.elim
  · obtain ⟨h1, e, h2, h3⟩ := hs; exact h2.elim
  · obtain ⟨h1, e, b', r', h2, h3, h4⟩ := hs
    rcases b' with _ | ⟨d, b'⟩
    · simp only [List.nil_append, List.cons.injEq, Except.error.injEq] at h2
      obtain ⟨rfl, h2⟩ := h2
      cases h3
      exact ⟨h4.1, trivial, h2, h4.2⟩
    · simp only [List.cons_append, List.cons.injEq] at h2
      obtain ⟨rfl, rfl⟩ := h2
      exact h3.elim

theorem running_busy {n : Nat} {s : PrefState c} (hs : Running x I K n s) :
    Busy I s ∧ (s.thr = none → s.buf = []) := by
  rcases s with ⟨cs, state, buf, thr, flag, pc⟩
  rcases thr with _ | (_ | _ | _ | _ | (_ | ⟨a, ck⟩) | _) <;> simp only [Running, Busy] at hs ⊢
  · exact ⟨⟨_, hs.2⟩, fun _ => hs.1⟩
  · obtain ⟨h1, e, h2, h3⟩ := hs; exact ⟨⟨_, h3⟩, by simp⟩
  · obtain ⟨h1, e, h2, h3⟩ := hs; exact ⟨⟨_, h3⟩, by simp⟩
  · obtain ⟨h1, e, h2, h3⟩ := hs; exact ⟨⟨_, h3⟩, by simp⟩
  · obtain ⟨h1, e, h2, h3, h4⟩ := hs; exact ⟨⟨_, h4⟩, by simp⟩
  · obtain ⟨h1, e, h2, h3, h4⟩ := hs; exact ⟨⟨_, h4⟩, by simp⟩
  · obtain ⟨h1, e, h2, h3, h4, h5⟩ := hs; exact ⟨⟨_, h5⟩, by simp⟩
  · obtain ⟨h1, e, b, r, h2, h3, h4, h5⟩ := hs; exact ⟨⟨_, h5⟩, by simp⟩

/-- `Running` does not depend on where the user is, nor on its checkpoint. -/
theorem running_pc {n : Nat} {s : PrefState c} (hs : Running x I K n s) (pc) : Running x I K n { s with pc := pc } := hs

theorem busy_pc {s : PrefState c} (hs : Busy I s) (pc) (b) (f) : Busy I { s with pc := pc, buf := b, flag := f } := hs

theorem running_none {n : Nat} {s : PrefState c} (h1 : s.thr = none) (h2 : s.buf = []) (h3 : I n .idle s.cs) :
    Running x I K n s := by
  unfold Running
  rw [h1]
  exact ⟨h2, h3⟩

theorem busy_idle {s : PrefState c} (h : s.thr ≠ some .reading) (hs : Busy I s) : ∃ e, I e .idle s.cs := by
  rcases s with ⟨cs, state, buf, thr, flag, pc⟩
  dsimp only at h
  rcases thr with _ | (_ | _ | _ | _ | (_ | ⟨a, ck⟩) | _) <;> first | exact hs | exact absurd rfl h

/-- Every step keeps the invariant; it is a step of the layer below, or the rank goes down. -/
theorem prefInv_step (h : Follows c x I K) {n : Nat} {m : CMode} {s t : PrefState c} (hb : Bounded size s)
    (hs : PrefInv x I K n m s) (ht : PrefStep size c s t) :
    PrefInv x I K n m t ∧ ((c.step s.cs t.cs ∧ t.rank size = s.rank size) ∨ t.rank size < s.rank size) := by
  have hb' := bounded_step hb ht
  cases ht with
  | below t ht => exact ⟨prefInv_below h hs ht, Or.inl ⟨ht, rfl⟩⟩
  | check h1 => exact (prefInv_prod hs (prod_check h h1)).imp id Or.inr
  | call t h1 h2 => exact (prefInv_prod hs (prod_call h h1 h2)).imp id Or.inr
  | item a t h1 h2 => exact (prefInv_prod hs (prod_item h h1 h2)).imp id Or.inr
  | over e t h1 h2 => exact (prefInv_prod hs (prod_over h h1 h2)).imp id Or.inr
  | getState a h1 => exact (prefInv_prod hs (prod_getState h h1)).imp id Or.inr
  | put a h1 h2 => exact (prefInv_prod hs (prod_put h1 h2)).imp id Or.inr
  | putStop e h1 h2 => exact (prefInv_prod hs (prod_putStop h1 h2)).imp id Or.inr
  | start h1 h2 =>
    refine ⟨?_, Or.inr (rank_lt_of_phase hb' ?_)⟩
    · rcases s with ⟨cs, state, buf, thr, flag, pc⟩
      dsimp only at h1
      subst h1
      cases m <;> try exact hs.elim
      obtain ⟨h3, h4⟩ := hs
      cases thr with
      | none =>
        refine ⟨⟨rfl, n, ?_, h3.2⟩, h4, by simp⟩
        have := h3.1
        dsimp only at this
        subst this
        exact rfl
      | some p => exact ⟨h3, h4, by simp⟩
    · dsimp only
      rw [h1]
      simp [UserPc.phase]
  | take a ck b h1 h2 =>
    refine ⟨?_, Or.inr (rank_lt_of_phase hb' ?_)⟩
    · rcases s with ⟨cs, state, buf, thr, flag, pc⟩
      dsimp only at h1
      subst h1
      cases m <;> try exact hs.elim
      obtain ⟨h3, h4, h5⟩ := hs
      obtain ⟨h6, h7, h8⟩ := running_head h2 h3
      have : nextPos x n = n + 1 := by simp [nextPos, h6]
      refine ⟨h6.symm, ?_, ?_⟩
      · rw [this]; exact h8 _ _
      · rw [this]; exact h7
    · dsimp only
      rw [h1]
      simp [UserPc.phase]
  | takeStop e b h1 h2 =>
    refine ⟨?_, Or.inr (rank_lt_of_phase hb' ?_)⟩
    · rcases s with ⟨cs, state, buf, thr, flag, pc⟩
      dsimp only at h1
      subst h1
      cases m <;> try exact hs.elim
      obtain ⟨h3, h4, h5⟩ := hs
      obtain ⟨h6, h7, h8, h9⟩ := running_headStop h2 h3
      exact ⟨h6, h9, h4, h7⟩
    · dsimp only
      rw [h1]
      simp [UserPc.phase]
  | sync t h1 h2 h3 h4 =>
    refine ⟨?_, Or.inr (rank_lt_of_phase hb' ?_)⟩
    · have hthr := hb.2 h2
      rcases s with ⟨cs, state, buf, thr, flag, pc⟩
      dsimp only at h1 h3 h4 hthr
      subst h1 h3 hthr
      cases m <;> try exact hs.elim
      obtain ⟨h5, h6⟩ := hs
      exact ⟨rfl, rfl, h.call h5.2 h4, h6⟩
    · dsimp only
      rw [h1]
      simp [UserPc.phase]
  | syncItem a t h1 h2 =>
    refine ⟨?_, Or.inr (rank_lt_of_phase hb' ?_)⟩
    · rcases s with ⟨cs, state, buf, thr, flag, pc⟩
      dsimp only at h1 h2
      subst h1
      cases m <;> try exact hs.elim
      obtain ⟨h5, h6, h7, h8⟩ := hs
      obtain ⟨h9, h10⟩ := h.ret h7 h2
      simp only [nextPos, ← h9] at h10
      exact ⟨h5, h6, h9.symm, h10⟩
    · dsimp only
      rw [h1]
      simp [UserPc.phase]
  | syncOver e t h1 h2 =>
    refine ⟨?_, Or.inr (rank_lt_of_phase hb' ?_)⟩
    · rcases s with ⟨cs, state, buf, thr, flag, pc⟩
      dsimp only at h1 h2
      subst h1
      cases m <;> try exact hs.elim
      obtain ⟨h5, h6, h7, h8⟩ := hs
      obtain ⟨h9, h10⟩ := h.ret h7 h2
      exact ⟨h9, running_none h5 h6 h10, h8.next h9.symm⟩
    · dsimp only
      rw [h1]
      simp [UserPc.phase]
  | syncState a h1 =>
    refine ⟨?_, Or.inr (rank_lt_of_phase hb' ?_)⟩
    · rcases s with ⟨cs, state, buf, thr, flag, pc⟩
      dsimp only at h1
      subst h1
      cases m <;> try exact hs.elim
      obtain ⟨h5, h6, h7, h8⟩ := hs
      dsimp only at h7 h8
      have : nextPos x n = n + 1 := by simp [nextPos, h7]
      refine ⟨h7.symm, ?_, ?_⟩
      · rw [this]; exact running_none h5 h6 (h.get h8).1
      · rw [this]; exact (h.get h8).2
    · dsimp only
      rw [h1]
      simp [UserPc.phase]
  | stopNone k h1 h2 =>
    refine ⟨?_, Or.inr (rank_lt_of_phase hb' ?_)⟩
    · rcases s with ⟨cs, state, buf, thr, flag, pc⟩
      dsimp only at h1 h2
      subst h1 h2
      cases k <;> cases m <;> try exact hs.elim
      · exact absurd hs.2.2.2 (by simp)
      · obtain ⟨h3, ⟨e, h4⟩, h5⟩ := hs
        exact ⟨h3, rfl, h5 rfl, e, h4⟩
    · dsimp only
      rw [h1]
      cases k <;> simp [UserPc.phase, afterStop]
  | stopSome k h1 h2 =>
    refine ⟨?_, Or.inr (rank_lt_of_phase hb' ?_)⟩
    · rcases s with ⟨cs, state, buf, thr, flag, pc⟩
      dsimp only at h1 h2
      subst h1
      cases k <;> cases m <;> try exact hs.elim
      · exact ⟨hs, rfl⟩
      · obtain ⟨h3, h4, h5⟩ := hs
        exact ⟨h3, h4, by rintro rfl; simp at h2, rfl⟩
    · dsimp only
      rw [h1]
      cases k <;> simp [UserPc.phase]
  | clear k e b h1 h2 =>
    refine ⟨?_, Or.inr (rank_lt_of_pot rfl ?_)⟩
    · rcases s with ⟨cs, state, buf, thr, flag, pc⟩
      dsimp only at h1 h2
      subst h1
      cases k <;> cases m <;> try exact hs.elim
      · exact hs
      · exact hs
    · unfold PrefState.pot
      dsimp only
      rw [h1, h2]
      simp [UserPc.phase]
  | clearEnd k h1 h2 =>
    refine ⟨?_, Or.inr (rank_lt_of_phase hb' ?_)⟩
    · rcases s with ⟨cs, state, buf, thr, flag, pc⟩
      dsimp only at h1 h2
      subst h1 h2
      cases k <;> cases m <;> try exact hs.elim
      · exact hs.1
      · exact ⟨hs.1, hs.2.1, hs.2.2.1, hs.2.2.2, Or.inr (Or.inr rfl)⟩
    · dsimp only
      rw [h1]
      cases k <;> simp [UserPc.phase]
  | join k h1 h2 =>
    refine ⟨?_, Or.inr (rank_lt_of_phase hb' ?_)⟩
    · rcases s with ⟨cs, state, buf, thr, flag, pc⟩
      dsimp only at h1 h2
      subst h1 h2
      cases k <;> cases m <;> try exact hs.elim
      · exact ⟨hs.1, hs.2.1, hs.2.2.1, rfl⟩
      · exact ⟨hs.1, rfl, hs.2.1⟩
    · dsimp only
      rw [h1]
      cases k <;> simp [UserPc.phase]
  | again k e b h1 h2 =>
    refine ⟨?_, Or.inr (rank_lt_of_pot rfl ?_)⟩
    · rcases s with ⟨cs, state, buf, thr, flag, pc⟩
      dsimp only at h1 h2
      subst h1
      cases k <;> cases m <;> try exact hs.elim
      · exact hs
      · exact hs
    · unfold PrefState.pot
      dsimp only
      rw [h1, h2]
      simp [UserPc.phase]
  | againEnd k h1 h2 =>
    refine ⟨?_, Or.inr (rank_lt_of_phase hb' ?_)⟩
    · rcases s with ⟨cs, state, buf, thr, flag, pc⟩
      dsimp only at h1 h2
      subst h1 h2
      cases k <;> cases m <;> try exact hs.elim
      · obtain ⟨h3, h4, h5, h6⟩ := hs
        exact ⟨h3.symm, running_none h6 rfl h4, h5.next h3⟩
      · exact ⟨hs.1, hs.2.1, rfl, hs.2.2⟩
    · dsimp only
      rw [h1]
      cases k <;> simp [UserPc.phase, afterStop]
  | setPar ck t h1 h2 =>
    refine ⟨?_, Or.inr (rank_lt_of_phase hb' ?_)⟩
    · rcases s with ⟨cs, state, buf, thr, flag, pc⟩
      dsimp only at h1 h2
      subst h1
      cases m <;> try exact hs.elim
      obtain ⟨h3, h4, h5, e, h6⟩ := hs
      exact ⟨h4, h5, h.setCall h6 h3 h2⟩
    · dsimp only
      rw [h1]
      simp [UserPc.phase]
  | setRet t h1 h2 =>
    refine ⟨?_, Or.inr (rank_lt_of_phase hb' ?_)⟩
    · rcases s with ⟨cs, state, buf, thr, flag, pc⟩
      dsimp only at h1 h2
      subst h1
      cases m <;> try exact hs.elim
      obtain ⟨h3, h4, h5⟩ := hs
      exact ⟨h3, h4, h.setRet h5 h2⟩
    · dsimp only
      rw [h1]
      simp [UserPc.phase]
  | setGet h1 =>
    refine ⟨?_, Or.inr (rank_lt_of_phase hb' ?_)⟩
    · rcases s with ⟨cs, state, buf, thr, flag, pc⟩
      dsimp only at h1
      subst h1
      cases m <;> try exact hs.elim
      obtain ⟨h3, h4, h5⟩ := hs
      exact ⟨h3, h4, (h.get h5).1, (h.get h5).2⟩
    · dsimp only
      rw [h1]
      simp [UserPc.phase]

/-- The layer below is in order whatever the thread and the user do. -/
theorem prefInv_parent {n : Nat} {m : CMode} {s : PrefState c} (hs : PrefInv x I K n m s) : ∃ k l, I k l s.cs := by
  have hr : ∀ {k}, Running x I K k s → ∃ k l, I k l s.cs := by
    intro k hk
    have := (running_busy hk).1
    unfold Busy at this
    split at this
    · exact ⟨_, _, this.choose_spec⟩
    · exact ⟨_, _, this.choose_spec⟩
  have hb : Busy I s → ∃ k l, I k l s.cs := by
    intro this
    unfold Busy at this
    split at this
    · exact ⟨_, _, this.choose_spec⟩
    · exact ⟨_, _, this.choose_spec⟩
  revert hs hr hb
  rcases s with ⟨cs, state, buf, thr, flag, pc⟩
  dsimp only
  intro hs hr hb
  rcases pc with _ | _ | _ | _ | _ | (_ | _) | (_ | _) | (_ | _) | (_ | _) | _ | _ | _ | _ | _ <;>
    cases m <;> simp only [PrefInv, AtEnd] at hs
  · exact hr hs.1
  · exact hr hs.1
  · exact hr hs.1
  · exact ⟨_, _, hs.2.2.1⟩
  · exact ⟨_, _, hs.2.2.2⟩
  · exact ⟨_, _, hs.2.1⟩
  · exact hb hs.2.1
  · exact ⟨_, _, hs.1.2.1⟩
  · exact hb hs.2.1
  · exact ⟨_, _, hs.2.1⟩
  · exact hb hs.2.1
  · exact ⟨_, _, hs.2.1⟩
  · exact ⟨_, _, hs.2.2.choose_spec⟩
  · exact hr hs.2.1
  · exact ⟨_, _, hs.2.2.2.choose_spec⟩
  · exact ⟨_, _, hs.2.2⟩
  · exact ⟨_, _, hs.2.2⟩
  · exact ⟨_, _, hs.2.2.1⟩

/-- A thread that has not ended, and has room in the buffer, can make a step (or a thread below it can). -/
theorem prod_live (h : Follows c x I K) {s : PrefState c} (hs : Busy I s) (h1 : s.thr ≠ none) (h2 : s.thr ≠ some .exited)
    (h3 : (∃ e, s.thr = some (.put e)) → s.buf.length < size) : ∃ t, PrefStep size c s t := by
  cases hthr : s.thr with
  | none => exact absurd hthr h1
  | some p =>
    cases p with
    | check => exact ⟨_, .check s hthr⟩
    | call =>
      obtain ⟨e, he⟩ := busy_idle (by rw [hthr]; simp) hs
      obtain ⟨t, ht⟩ := h.canCall he
      exact ⟨_, .call s t hthr ht⟩
    | reading =>
      unfold Busy at hs
      rw [hthr] at hs
      obtain ⟨e, he⟩ := hs
      rcases h.live he with ⟨t, ht⟩ | ⟨r, t, ht⟩
      · exact ⟨_, .below s t ht⟩
      · cases r with
        | none => exact ⟨_, .over s none t hthr ht⟩
        | some r =>
          cases r with
          | error e => exact ⟨_, .over s (some e) t hthr ht⟩
          | ok a => exact ⟨_, .item s a t hthr ht⟩
    | got a => exact ⟨_, .getState s a hthr⟩
    | put e =>
      cases e with
      | error e => exact ⟨_, .putStop s e hthr (h3 ⟨_, hthr⟩)⟩
      | ok a => exact ⟨_, .put s a hthr (h3 ⟨_, hthr⟩)⟩
    | exited => exact absurd hthr h2

/-- A thread prefetch follows the stream of its parent. -/
theorem prefetch_follows (h : Follows c x I K) :
    Follows (prefetchOver size c) x (fun n m s => Bounded size s ∧ PrefInv x I K n m s) K := by
  constructor
  · refine ⟨⟨by simp [prefetchOver], fun _ => rfl⟩, ⟨rfl, (h.get h.init).1⟩, (h.get h.init).2⟩
  · rintro n m s t ⟨hb, hs⟩ ht
    exact ⟨bounded_step hb ht, (prefInv_step h hb hs ht).1⟩
  · rintro n s t ⟨hb, hs⟩ ⟨hpc, rfl⟩
    rcases s with ⟨cs, state, buf, thr, flag, pc⟩
    dsimp only at hpc
    subst hpc
    exact ⟨hb, hs⟩
  · rintro n s r t ⟨hb, hs⟩ ⟨hpc, rfl⟩
    rcases s with ⟨cs, state, buf, thr, flag, pc⟩
    dsimp only at hpc
    subst hpc
    exact ⟨hs.1, hb, hs.2⟩
  · rintro n s ⟨hb, hs⟩
    refine ⟨⟨hb, hs⟩, ?_⟩
    rcases s with ⟨cs, state, buf, thr, flag, pc⟩
    cases pc <;> try exact hs.elim
    · exact hs.2
    all_goals (rename_i k; cases k <;> exact hs.elim)
  · rintro n s k ck t ⟨hb, hs⟩ hk ⟨hpc, rfl⟩
    rcases s with ⟨cs, state, buf, thr, flag, pc⟩
    dsimp only at hpc
    subst hpc
    exact ⟨hb, hk, running_busy hs.1⟩
  · rintro n s t ⟨hb, hs⟩ ⟨hpc, rfl⟩
    rcases s with ⟨cs, state, buf, thr, flag, pc⟩
    dsimp only at hpc
    subst hpc
    exact ⟨hb, running_none hs.1 hs.2.1 hs.2.2.1, hs.2.2.2⟩
  · rintro n s ⟨hb, hs⟩
    rcases s with ⟨cs, state, buf, thr, flag, pc⟩
    cases pc <;> try exact hs.elim
    · exact ⟨_, rfl, rfl⟩
    all_goals (rename_i k; cases k <;> exact hs.elim)
  · rintro n s k ck ⟨hb, hs⟩ -
    rcases s with ⟨cs, state, buf, thr, flag, pc⟩
    cases pc <;> try exact hs.elim
    · exact ⟨_, rfl, rfl⟩
    all_goals (rename_i k; cases k <;> exact hs.elim)
  · rintro n s ⟨hb, hs⟩
    rcases s with ⟨cs, state, buf, thr, flag, pc⟩
    rcases pc with _ | _ | _ | _ | _ | (_ | _) | (_ | _) | (_ | _) | (_ | _) | _ | _ | _ | _ | _ <;>
      try exact hs.elim
    · left
      by_cases hz : size = 0
      · have h1 := hb.2 hz
        dsimp only at h1
        subst h1
        obtain ⟨⟨h2, h3⟩, -⟩ := hs
        obtain ⟨t, ht⟩ := h.canCall h3
        exact ⟨_, .sync _ t rfl hz h2 ht⟩
      · exact ⟨_, .start _ rfl (by omega)⟩
    · left
      rcases buf with _ | ⟨_ | ⟨a, ck⟩, b⟩
      · refine prod_live h (running_busy hs.1).1 hs.2.2 ?_ ?_
        · rintro h1
          dsimp only at h1
          subst h1
          obtain ⟨⟨-, e, b, r, h2, -⟩, -⟩ := hs
          simp at h2
        · rintro ⟨e, h1⟩
          dsimp only at h1 ⊢
          have : size ≠ 0 := by
            intro hz
            have := hb.2 hz
            dsimp only at this
            rw [this] at h1
            simp at h1
          simp
          omega
      · exact ⟨_, .takeStop _ _ b rfl rfl⟩
      · exact ⟨_, .take _ a ck b rfl rfl⟩
    · left
      rcases h.live hs.2.2.1 with ⟨t, ht⟩ | ⟨r, t, ht⟩
      · exact ⟨_, .below _ t ht⟩
      · cases r with
        | none => exact ⟨_, .syncOver _ none t rfl ht⟩
        | some r =>
          cases r with
          | error e => exact ⟨_, .syncOver _ (some e) t rfl ht⟩
          | ok a => exact ⟨_, .syncItem _ a t rfl ht⟩
    · exact Or.inl ⟨_, .syncState _ _ rfl⟩
    · refine Or.inl ⟨_, .stopSome _ _ rfl ?_⟩
      have := hs.2.2.2
      dsimp only at this ⊢
      rw [this]
      rfl
    · left
      rcases buf with _ | ⟨e, b⟩
      · exact ⟨_, .clearEnd _ _ rfl rfl⟩
      · exact ⟨_, .clear _ _ e b rfl rfl⟩
    · exact Or.inl ⟨_, .join _ _ rfl hs.2.2.2⟩
    · left
      rcases buf with _ | ⟨e, b⟩
      · exact ⟨_, .againEnd _ _ rfl rfl⟩
      · exact ⟨_, .again _ _ e b rfl rfl⟩
    · exact Or.inr ⟨_, _, rfl, rfl⟩
  · rintro n s ⟨hb, hs⟩
    rcases s with ⟨cs, state, buf, thr, flag, pc⟩
    rcases pc with _ | _ | _ | _ | _ | (_ | _) | (_ | _) | (_ | _) | (_ | _) | _ | _ | _ | _ | _ <;>
      try exact hs.elim
    · left
      cases thr with
      | none => exact ⟨_, .stopNone _ _ rfl rfl⟩
      | some p => exact ⟨_, .stopSome _ _ rfl rfl⟩
    · left
      rcases buf with _ | ⟨e, b⟩
      · exact ⟨_, .clearEnd _ _ rfl rfl⟩
      · exact ⟨_, .clear _ _ e b rfl rfl⟩
    · left
      obtain ⟨h1, h2, h3, h4, h5⟩ := hs
      by_cases hex : thr = some .exited
      · exact ⟨_, .join _ _ rfl hex⟩
      · refine prod_live h h2 h3 hex ?_
        rintro ⟨e, he⟩
        dsimp only at he h5 ⊢
        have : size ≠ 0 := by
          intro hz
          have := hb.2 hz
          dsimp only at this
          rw [this] at he
          simp at he
        rcases h5 with h5 | h5 | h5
        · rw [he] at h5
          simp at h5
        · exact absurd h5 hex
        · rw [h5]
          simp
          omega
    · left
      rcases buf with _ | ⟨e, b⟩
      · exact ⟨_, .againEnd _ _ rfl rfl⟩
      · exact ⟨_, .again _ _ e b rfl rfl⟩
    · left
      obtain ⟨h1, h2, h3, e, h4⟩ := hs
      obtain ⟨t, ht⟩ := h.canSet h4 h1
      exact ⟨_, .setPar _ _ t rfl ht⟩
    · left
      rcases h.liveSet hs.2.2 with ⟨t, ht⟩ | ⟨t, ht⟩
      · exact ⟨_, .below _ t ht⟩
      · exact ⟨_, .setRet _ t rfl ht⟩
    · exact Or.inl ⟨_, .setGet _ rfl⟩
    · exact Or.inr ⟨_, rfl, rfl⟩
  · rintro n m s hs
    refine acc_of_rank (proj := PrefState.cs) (cstep := c.step)
      (R := fun w s => s.rank size = w ∧ Bounded size s ∧ PrefInv x I K n m s) ?_ ?_ _ s ⟨rfl, hs⟩
    · rintro w s t ⟨rfl, hb, hs⟩ ht
      obtain ⟨h1, h2⟩ := prefInv_step h hb hs ht
      rcases h2 with ⟨h2, h3⟩ | h2
      · exact Or.inl ⟨h2, h3, bounded_step hb ht, h1⟩
      · exact Or.inr ⟨_, h2, rfl, bounded_step hb ht, h1⟩
    · rintro w s ⟨-, -, hs⟩
      obtain ⟨k, l, hk⟩ := prefInv_parent hs
      exact h.acc hk

end
end Raise
end Grain
