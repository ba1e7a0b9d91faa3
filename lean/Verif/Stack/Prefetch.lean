import Verif.Stack.Lemmas
/-
A thread prefetch over an iterator that follows a stream follows it too.
-/
namespace Grain

section
variable {c : ConcIter α} {x : Nat → Option α} {I : Nat → CMode → c.S → Prop} {K : Nat → c.C → Prop} {size : Nat}

/-- The entries are the elements `n, n + 1, …, e - 1` of the stream, each with a checkpoint after it. -/
def Items (x : Nat → Option α) (K : Nat → C → Prop) : Nat → List (Option (α × C)) → Nat → Prop
  | n, [], e => n = e
  | n, some (a, ck) :: es, e => x n = some a ∧ K (n + 1) ck ∧ Items x K (n + 1) es e
  | _, none :: _, _ => False

theorem Items.snoc {C : Type} {K : Nat → C → Prop} {n e : Nat} {es : List (Option (α × C))} {a : α} {ck : C}
    (h : Items x K n es e) (hx : x e = some a) (hk : K (e + 1) ck) : Items x K n (es ++ [some (a, ck)]) (e + 1) := by
  induction es generalizing n with
  | nil => cases h; exact ⟨hx, hk, rfl⟩
  | cons b es ih =>
    rcases b with _ | ⟨b, ck'⟩
    · exact h.elim
    · exact ⟨h.1, h.2.1, ih h.2.2⟩

/-- Working order: the buffer continues the stream where the user is, the parent where the buffer ends. -/
def Running (x : Nat → Option α) (I : Nat → CMode → c.S → Prop) (K : Nat → c.C → Prop) (n : Nat) (s : PrefState c) :
    Prop :=
  match s.thr with
  | none => s.buf = [] ∧ I n .idle s.cs
  | some .check => s.flag = false ∧ ∃ e, Items x K n s.buf e ∧ I e .idle s.cs
  | some .call => s.flag = false ∧ ∃ e, Items x K n s.buf e ∧ I e .idle s.cs
  | some .reading => s.flag = false ∧ ∃ e, Items x K n s.buf e ∧ I e .next s.cs
  | some (.got a) => s.flag = false ∧ ∃ e, Items x K n s.buf e ∧ x e = some a ∧ I (e + 1) .idle s.cs
  | some (.put (some (a, ck))) =>
    s.flag = false ∧ ∃ e, Items x K n s.buf e ∧ x e = some a ∧ K (e + 1) ck ∧ I (e + 1) .idle s.cs
  | some (.put none) => s.flag = false ∧ ∃ e, Items x K n s.buf e ∧ x e = none ∧ I e .idle s.cs
  | some .exited => s.flag = false ∧ ∃ e b, s.buf = b ++ [none] ∧ Items x K n b e ∧ x e = none ∧ I e .idle s.cs

/-- The parent is at some position, in a call of the prefetch thread or not. -/
def Busy (I : Nat → CMode → c.S → Prop) (s : PrefState c) : Prop :=
  match s.thr with
  | some .reading => ∃ e, I e .next s.cs
  | _ => ∃ e, I e .idle s.cs

/-- At the end of the stream, the thread finished. -/
def AtEnd (x : Nat → Option α) (I : Nat → CMode → c.S → Prop) (K : Nat → c.C → Prop) (n : Nat) (s : PrefState c) : Prop :=
  x n = none ∧ I n .idle s.cs ∧ K n s.state ∧ s.thr = some .exited

def PrefInv (x : Nat → Option α) (I : Nat → CMode → c.S → Prop) (K : Nat → c.C → Prop) (n : Nat) (m : CMode)
    (s : PrefState c) : Prop :=
  match s.pc, m with
  | .idle, .idle => Running x I K n s ∧ K n s.state
  | .enter, .next => Running x I K n s ∧ K n s.state
  | .take, .next => Running x I K n s ∧ K n s.state ∧ s.thr ≠ none
  | .sync, .next => s.thr = none ∧ s.buf = [] ∧ I n .next s.cs ∧ K n s.state
  | .syncGot a, .next => s.thr = none ∧ s.buf = [] ∧ x n = some a ∧ I (n + 1) .idle s.cs
  | .done r, .next => r = x n ∧ Running x I K (nextPos x n) s ∧ K (nextPos x n) s.state
  | .stop none, .next => AtEnd x I K n s
  | .clear none, .next => AtEnd x I K n s ∧ s.flag = true
  | .join none, .next => AtEnd x I K n s
  | .clearAgain none, .next => x n = none ∧ I n .idle s.cs ∧ K n s.state ∧ s.thr = none
  | .stop (some ck), .set => K n ck ∧ Busy I s ∧ (s.thr = none → s.buf = [])
  | .clear (some ck), .set => K n ck ∧ Busy I s ∧ s.thr ≠ none ∧ s.flag = true
  | .join (some ck), .set =>
    K n ck ∧ Busy I s ∧ s.thr ≠ none ∧ s.flag = true ∧ (s.thr = some .check ∨ s.thr = some .exited ∨ s.buf = [])
  | .clearAgain (some ck), .set => K n ck ∧ s.thr = none ∧ ∃ e, I e .idle s.cs
  | .setPar ck, .set => K n ck ∧ s.thr = none ∧ s.buf = [] ∧ ∃ e, I e .idle s.cs
  | .setting, .set => s.thr = none ∧ s.buf = [] ∧ I n .set s.cs
  | .setGot, .set => s.thr = none ∧ s.buf = [] ∧ I n .idle s.cs
  | .setDone, .set => s.thr = none ∧ s.buf = [] ∧ I n .idle s.cs ∧ K n s.state
  | _, _ => False

/-- The buffer never holds more than `size` entries; without a buffer there is no thread. -/
def Bounded (size : Nat) (s : PrefState c) : Prop := s.buf.length ≤ size ∧ (size = 0 → s.thr = none)

/-! #### The rank of a state -/

def UserPc.phase {α C : Type} : UserPc α C → Nat
  | .idle => 0
  | .done _ => 0
  | .setDone => 0
  | .setGot => 1
  | .syncGot _ => 1
  | .setting => 2
  | .sync => 2
  | .setPar _ => 3
  | .clearAgain _ => 4
  | .join _ => 5
  | .clear _ => 6
  | .stop _ => 7
  | .take => 8
  | .enter => 9

def PrefPc.stage {α C : Type} : Option (PrefPc α C) → Nat
  | none => 0
  | some .exited => 0
  | some (.put _) => 1
  | some (.got _) => 2
  | some .reading => 3
  | some .call => 4
  | some .check => 5

def PrefPc.lastStage {α C : Type} : Option (PrefPc α C) → Nat
  | none => 0
  | some .exited => 0
  | some .check => 1
  | some (.put _) => 3
  | some (.got _) => 4
  | some .reading => 5
  | some .call => 6

def PrefState.pot (size : Nat) (s : PrefState c) : Nat :=
  if s.pc.phase = 4 ∨ s.pc.phase = 6 then s.buf.length + PrefPc.lastStage s.thr
  else 6 * (size - s.buf.length) + PrefPc.stage s.thr

def PrefState.rank (size : Nat) (s : PrefState c) : Nat := s.pc.phase * (7 * size + 20) + s.pot size

theorem stage_le {α C : Type} (o : Option (PrefPc α C)) : PrefPc.stage o ≤ 5 := by
  rcases o with _ | (_ | _ | _ | _ | _ | _) <;> simp [PrefPc.stage]

theorem lastStage_le {α C : Type} (o : Option (PrefPc α C)) : PrefPc.lastStage o ≤ 6 := by
  rcases o with _ | (_ | _ | _ | _ | _ | _) <;> simp [PrefPc.lastStage]

theorem pot_lt {s : PrefState c} (h : Bounded size s) : s.pot size < 7 * size + 20 := by
  have h1 := stage_le s.thr
  have h2 := lastStage_le s.thr
  have h3 := h.1
  unfold PrefState.pot
  split <;> omega

theorem rank_lt_of_phase {s t : PrefState c} (ht : Bounded size t) (h : t.pc.phase < s.pc.phase) :
    t.rank size < s.rank size := by
  have h1 := pot_lt ht
  have h2 : (t.pc.phase + 1) * (7 * size + 20) ≤ s.pc.phase * (7 * size + 20) := Nat.mul_le_mul_right _ h
  unfold PrefState.rank
  rw [Nat.add_mul] at h2
  omega

theorem rank_lt_of_pot {s t : PrefState c} (h1 : t.pc = s.pc) (h : t.pot size < s.pot size) :
    t.rank size < s.rank size := by
  unfold PrefState.rank
  rw [h1]
  omega

/-! #### Steps -/

theorem bounded_step {s t : PrefState c} (hs : Bounded size s) (ht : PrefStep size c s t) : Bounded size t := by
  obtain ⟨h1, h2⟩ := hs
  cases ht <;> refine ⟨?_, ?_⟩ <;> (try simp_all) <;> (try omega)

theorem running_below (h : Follows c x I K) {n : Nat} {s : PrefState c} (hs : Running x I K n s) {t : c.S}
    (ht : c.step s.cs t) : Running x I K n { s with cs := t } := by
  rcases s with ⟨cs, state, buf, thr, flag, pc⟩
  dsimp only at ht
  rcases thr with _ | (_ | _ | _ | _ | (_ | ⟨a, ck⟩) | _) <;> simp only [Running] at hs ⊢
  · exact ⟨hs.1, h.step hs.2 ht⟩
  · obtain ⟨h1, e, h2, h3⟩ := hs; exact ⟨h1, e, h2, h.step h3 ht⟩
  · obtain ⟨h1, e, h2, h3⟩ := hs; exact ⟨h1, e, h2, h.step h3 ht⟩
  · obtain ⟨h1, e, h2, h3⟩ := hs; exact ⟨h1, e, h2, h.step h3 ht⟩
  · obtain ⟨h1, e, h2, h3, h4⟩ := hs; exact ⟨h1, e, h2, h3, h.step h4 ht⟩
  · obtain ⟨h1, e, h2, h3, h4⟩ := hs; exact ⟨h1, e, h2, h3, h.step h4 ht⟩
  · obtain ⟨h1, e, h2, h3, h4, h5⟩ := hs; exact ⟨h1, e, h2, h3, h4, h.step h5 ht⟩
  · obtain ⟨h1, e, b, h2, h3, h4, h5⟩ := hs; exact ⟨h1, e, b, h2, h3, h4, h.step h5 ht⟩

theorem busy_below (h : Follows c x I K) {s : PrefState c} (hs : Busy I s) {t : c.S}
    (ht : c.step s.cs t) : Busy I { s with cs := t } := by
  rcases s with ⟨cs, state, buf, thr, flag, pc⟩
  dsimp only at ht
  rcases thr with _ | (_ | _ | _ | _ | _ | _) <;> simp only [Busy] at hs ⊢ <;>
    (obtain ⟨e, h1⟩ := hs; exact ⟨e, h.step h1 ht⟩)

theorem prefInv_below (h : Follows c x I K) {n : Nat} {m : CMode} {s : PrefState c} (hs : PrefInv x I K n m s) {t : c.S}
    (ht : c.step s.cs t) : PrefInv x I K n m { s with cs := t } := by
  have hr : ∀ {k}, Running x I K k s → Running x I K k { s with cs := t } := fun hs => running_below h hs ht
  have hb : Busy I s → Busy I { s with cs := t } := fun hs => busy_below h hs ht
  have hi : ∀ {k l}, I k l s.cs → I k l t := fun hs => h.step hs ht
  clear ht
  revert hs hr hb hi
  rcases s with ⟨cs, state, buf, thr, flag, pc⟩
  dsimp only
  intro hs hr hb hi
  rcases pc with _ | _ | _ | _ | _ | (_ | _) | (_ | _) | (_ | _) | (_ | _) | _ | _ | _ | _ | _ <;>
    cases m <;> simp only [PrefInv, AtEnd] at hs ⊢
  · exact ⟨hr hs.1, hs.2⟩
  · exact ⟨hr hs.1, hs.2⟩
  · exact ⟨hr hs.1, hs.2⟩
  · exact ⟨hs.1, hs.2.1, hi hs.2.2.1, hs.2.2.2⟩
  · exact ⟨hs.1, hs.2.1, hs.2.2.1, hi hs.2.2.2⟩
  · exact ⟨hs.1, hi hs.2.1, hs.2.2⟩
  · exact ⟨hs.1, hb hs.2.1, hs.2.2⟩
  · exact ⟨⟨hs.1.1, hi hs.1.2.1, hs.1.2.2⟩, hs.2⟩
  · exact ⟨hs.1, hb hs.2.1, hs.2.2⟩
  · exact ⟨hs.1, hi hs.2.1, hs.2.2⟩
  · exact ⟨hs.1, hb hs.2.1, hs.2.2⟩
  · exact ⟨hs.1, hi hs.2.1, hs.2.2⟩
  · obtain ⟨h1, h2, e, h3⟩ := hs; exact ⟨h1, h2, e, hi h3⟩
  · exact ⟨hs.1, hr hs.2.1, hs.2.2⟩
  · obtain ⟨h1, h2, h3, e, h4⟩ := hs; exact ⟨h1, h2, h3, e, hi h4⟩
  · exact ⟨hs.1, hs.2.1, hi hs.2.2⟩
  · exact ⟨hs.1, hs.2.1, hi hs.2.2⟩
  · exact ⟨hs.1, hs.2.1, hi hs.2.2.1, hs.2.2.2⟩

/-- A step of the prefetch thread keeps the stream, and only gets closer to `buffer.put` or to its end. -/
structure ProdKeeps (size : Nat) (x : Nat → Option α) (I : Nat → CMode → c.S → Prop) (K : Nat → c.C → Prop)
    (s t : PrefState c) : Prop where
  pc : t.pc = s.pc
  state : t.state = s.state
  flag : t.flag = s.flag
  thr : s.thr ≠ none ∧ s.thr ≠ some .exited ∧ t.thr ≠ none
  run : ∀ {n}, Running x I K n s → Running x I K n t
  busy : Busy I s → Busy I t
  drained : s.flag = true → (s.thr = some .check ∨ s.thr = some .exited ∨ s.buf = []) →
    (t.thr = some .check ∨ t.thr = some .exited ∨ t.buf = [])
  pot : 6 * (size - t.buf.length) + PrefPc.stage t.thr < 6 * (size - s.buf.length) + PrefPc.stage s.thr
  last : s.flag = true → t.buf.length + PrefPc.lastStage t.thr < s.buf.length + PrefPc.lastStage s.thr

theorem prefInv_prod {n : Nat} {m : CMode} {s t : PrefState c} (hs : PrefInv x I K n m s) (hk : ProdKeeps size x I K s t) :
    PrefInv x I K n m t ∧ t.rank size < s.rank size := by
  obtain ⟨h1, h2, h3, h4, h5, h6, h7, h8, h9⟩ := hk
  have hrank : (s.pc.phase = 4 ∨ s.pc.phase = 6 → s.flag = true) → t.rank size < s.rank size := by
    intro hf
    refine rank_lt_of_pot h1 ?_
    unfold PrefState.pot
    rw [h1]
    split
    · exact h9 (hf ‹_›)
    · exact h8
  rcases s with ⟨cs, state, buf, thr, flag, pc⟩
  rcases t with ⟨cs', state', buf', thr', flag', pc'⟩
  dsimp only at h1 h2 h3 h4 h7 h8 h9 hrank
  subst h1 h2 h3
  rcases pc' with _ | _ | _ | _ | _ | (_ | _) | (_ | _) | (_ | _) | (_ | _) | _ | _ | _ | _ | _ <;>
    cases m <;> simp only [PrefInv, AtEnd] at hs ⊢
  · exact ⟨⟨h5 hs.1, hs.2⟩, hrank (by simp [UserPc.phase])⟩
  · exact ⟨⟨h5 hs.1, hs.2⟩, hrank (by simp [UserPc.phase])⟩
  · exact ⟨⟨h5 hs.1, hs.2.1, h4.2.2⟩, hrank (by simp [UserPc.phase])⟩
  · exact absurd hs.1 h4.1
  · exact absurd hs.1 h4.1
  · exact absurd hs.2.2.2 h4.2.1
  · exact ⟨⟨hs.1, h6 hs.2.1, fun h => absurd h h4.2.2⟩, hrank (by simp [UserPc.phase])⟩
  · exact absurd hs.1.2.2.2 h4.2.1
  · exact ⟨⟨hs.1, h6 hs.2.1, h4.2.2, hs.2.2.2⟩, hrank (fun _ => hs.2.2.2)⟩
  · exact absurd hs.2.2.2 h4.2.1
  · exact ⟨⟨hs.1, h6 hs.2.1, h4.2.2, hs.2.2.2.1, h7 hs.2.2.2.1 hs.2.2.2.2⟩, hrank (by simp [UserPc.phase])⟩
  · exact absurd hs.2.2.2 h4.1
  · exact absurd hs.2.1 h4.1
  · exact ⟨⟨hs.1, h5 hs.2.1, hs.2.2⟩, hrank (by simp [UserPc.phase])⟩
  · exact absurd hs.2.1 h4.1
  · exact absurd hs.1 h4.1
  · exact absurd hs.1 h4.1
  · exact absurd hs.1 h4.1

theorem prod_check (h : Follows c x I K) {s : PrefState c} (h1 : s.thr = some .check) :
    ProdKeeps size x I K s { s with thr := some (if s.flag then .exited else .call) } := by
  rcases s with ⟨cs, state, buf, thr, flag, pc⟩
  dsimp only at h1
  subst h1
  constructor <;> cases flag <;> simp [Running, Busy, PrefPc.stage, PrefPc.lastStage]

theorem prod_call (h : Follows c x I K) {s : PrefState c} {t} (h1 : s.thr = some .call) (ht : c.call s.cs t) :
    ProdKeeps size x I K s { s with cs := t, thr := some .reading } := by
  rcases s with ⟨cs, state, buf, thr, flag, pc⟩
  dsimp only at h1 ht
  subst h1
  constructor <;> try simp [PrefPc.stage, PrefPc.lastStage]
  · rintro n ⟨h1, e, h2, h3⟩
    exact ⟨h1, e, h2, h.call h3 ht⟩
  · rintro ⟨e, h1⟩
    exact ⟨e, h.call h1 ht⟩

theorem prod_item (h : Follows c x I K) {s : PrefState c} {a t} (h1 : s.thr = some .reading) (ht : c.ret s.cs (some a) t) :
    ProdKeeps size x I K s { s with cs := t, thr := some (.got a) } := by
  rcases s with ⟨cs, state, buf, thr, flag, pc⟩
  dsimp only at h1 ht
  subst h1
  constructor <;> try simp [PrefPc.stage, PrefPc.lastStage]
  · rintro n ⟨h1, e, h2, h3⟩
    obtain ⟨h4, h5⟩ := h.ret h3 ht
    simp only [nextPos, ← h4] at h5
    exact ⟨h1, e, h2, h4.symm, h5⟩
  · rintro ⟨e, h1⟩
    exact ⟨_, (h.ret h1 ht).2⟩

theorem prod_over (h : Follows c x I K) {s : PrefState c} {t} (h1 : s.thr = some .reading) (ht : c.ret s.cs none t) :
    ProdKeeps size x I K s { s with cs := t, thr := some (.put none) } := by
  rcases s with ⟨cs, state, buf, thr, flag, pc⟩
  dsimp only at h1 ht
  subst h1
  constructor <;> try simp [PrefPc.stage, PrefPc.lastStage]
  · rintro n ⟨h1, e, h2, h3⟩
    obtain ⟨h4, h5⟩ := h.ret h3 ht
    simp only [nextPos, ← h4] at h5
    exact ⟨h1, e, h2, h4.symm, h5⟩
  · rintro ⟨e, h1⟩
    exact ⟨_, (h.ret h1 ht).2⟩

theorem prod_getState (h : Follows c x I K) {s : PrefState c} {a} (h1 : s.thr = some (.got a)) :
    ProdKeeps size x I K s { s with cs := (c.get s.cs).1, thr := some (.put (some (a, (c.get s.cs).2))) } := by
  rcases s with ⟨cs, state, buf, thr, flag, pc⟩
  dsimp only at h1
  subst h1
  constructor <;> try simp [PrefPc.stage, PrefPc.lastStage]
  · rintro n ⟨h1, e, h2, h3, h4⟩
    exact ⟨h1, e, h2, h3, (h.get h4).2, (h.get h4).1⟩
  · rintro ⟨e, h1⟩
    exact ⟨e, (h.get h1).1⟩

theorem prod_put {s : PrefState c} {e} (h1 : s.thr = some (.put e)) (ht : s.buf.length < size) :
    ProdKeeps size x I K s { s with buf := s.buf ++ [e], thr := some (if e.isSome then .check else .exited) } := by
  rcases s with ⟨cs, state, buf, thr, flag, pc⟩
  dsimp only at h1 ht
  subst h1
  rcases e with _ | ⟨a, ck⟩
  · constructor <;> (try simp [PrefPc.stage, PrefPc.lastStage]) <;> (try omega)
    · rintro n ⟨h1, e, h2, h3, h4⟩
      exact ⟨h1, e, buf, rfl, h2, h3, h4⟩
    · rintro ⟨e, h1⟩
      exact ⟨e, h1⟩
  · constructor <;> (try simp [PrefPc.stage, PrefPc.lastStage]) <;> (try omega)
    · rintro n ⟨h1, e, h2, h3, h4, h5⟩
      exact ⟨h1, e + 1, h2.snoc h3 h4, h5⟩
    · rintro ⟨e, h1⟩
      exact ⟨e, h1⟩

end
end Grain
