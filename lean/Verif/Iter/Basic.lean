import Verif.Py
import Mathlib.Tactic.ByContra
/-
Stateful iterators (`DatasetIterator`, grain/_src/python/dataset/dataset.py:1409-1640) and what it means for one to
resume exactly from its checkpoints.
-/
namespace Grain

/-- Outcome of one `next(it)` call: a value, `StopIteration`, or another exception. -/
inductive Res (α : Type) where
  | item (a : α)
  | stop
  | fail (e : Err)
  deriving DecidableEq, Repr

/-- A `DatasetIterator` object as a state machine.

* `S` is the object's mutable state (including the states of its parents), `init` the state right after `__iter__`;
* `C` is the type of checkpoints (the value returned by `get_state`);
* `next F s` is `__next__`.  The number `F` (fuel) bounds the number of turns of every `while` loop inside; `none` means
  that the call did not return within the bound.  All theorems are about every sufficiently large `F`;
* `get` is `get_state` (it may change the object: InterleaveDatasetIterator opens datasets in it);
* `set F s c` is `set_state(c)`; the second component is the exception raised, if any (the object may have been changed
  before the exception);
* `getIdx`, `setIdx` are `_get_next_index` and `_set_next_index` (dataset.py:1610-1634), `NotImplementedError` by
  default. -/
structure Iter (α : Type) where
  S : Type
  C : Type
  init : S
  next : Nat → S → Option (S × Res α)
  get : S → S × C
  set : Nat → S → C → Option (S × Option Err)
  getIdx : S → Py Int := fun _ => .error .notImplemented
  setIdx : S → Int → S × Option Err := fun s _ => (s, some .notImplemented)

/-! ### Specification: what a user observes -/

/-- The calls a user can make on an iterator object and on a stack of saved checkpoints.
`restore k` restores the `k`-th saved checkpoint into the current object; `fresh k` is a crash: the object is lost, a new
one is created from the dataset and the `k`-th saved checkpoint is restored into it. -/
inductive Op where
  | next
  | save
  | restore (k : Nat)
  | fresh (k : Nat)
  deriving DecidableEq, Repr

/-- Outcome of call number `n` of `next` when the outcomes of a fresh iterator are `xs`, followed by `StopIteration`
forever if `ended` (when `ended = false`, `xs` is a prefix of the outcomes and nothing is known beyond it). -/
def outcome (xs : List (Py α)) (ended : Bool) (n : Nat) : Option (Res α) :=
  match xs[n]? with
  | some (.ok a) => some (.item a)
  | some (.error e) => some (.fail e)
  | none => if ended then some .stop else none

/-- The ideal iterator: a position in a fixed sequence of outcomes; a checkpoint is a position.  The result is the list
of outcomes of the `next` calls; `none` if the calls leave the known prefix or restore a checkpoint that does not
exist.  `used p` tells whether histories that restore a checkpoint of position `p` into a used object are considered
(always, except in the theorems about iterators whose code gets such a case wrong). -/
def specRun (xs : List (Py α)) (ended : Bool) (used : Nat → Bool) : Nat → List Nat → List Op → Option (List (Res α))
  | _, _, [] => some []
  | pos, saved, .next :: ops => do
    let r ← outcome xs ended pos
    let rest ← specRun xs ended used (min xs.length (pos + 1)) saved ops
    some (r :: rest)
  | pos, saved, .save :: ops => specRun xs ended used pos (saved ++ [pos]) ops
  | _, saved, .restore k :: ops => do
    let p ← saved[k]?
    if (p < xs.length ∨ ended = true) ∧ used p = true then specRun xs ended used p saved ops else none
  | _, saved, .fresh k :: ops => do
    let p ← saved[k]?
    if p < xs.length ∨ ended = true then specRun xs ended used p saved ops else none

/-- The same calls on the real iterator.  A `set_state` that raises is reported as `none` (no behaviour to compare). -/
def implRun (it : Iter α) (F : Nat) : it.S → List it.C → List Op → Option (List (Res α))
  | _, _, [] => some []
  | s, saved, .next :: ops => do
    let (s, r) ← it.next F s
    let rest ← implRun it F s saved ops
    some (r :: rest)
  | s, saved, .save :: ops =>
    let (s, c) := it.get s
    implRun it F s (saved ++ [c]) ops
  | s, saved, .restore k :: ops => do
    let c ← saved[k]?
    match (← it.set F s c) with
    | (s, none) => implRun it F s saved ops
    | (_, some _) => none
  | _, saved, .fresh k :: ops => do
    let c ← saved[k]?
    match (← it.set F it.init c) with
    | (s, none) => implRun it F s saved ops
    | (_, some _) => none

/-- `P` holds for every sufficiently large fuel. -/
def Ev (P : Nat → Prop) : Prop := ∃ k, ∀ F, k ≤ F → P F

/-- The user-level property: the iterator yields `xs` (then ends, if `ended`), and whatever calls of `next`, `get_state`,
`set_state` (into the used or a fresh object, any number of times, in any order) are made, the outcomes are those of the
ideal iterator. -/
def ResumesExactly (it : Iter α) (xs : List (Py α)) (ended : Bool) : Prop :=
  ∀ ops outs, specRun xs ended (fun _ => true) 0 [] ops = some outs →
    Ev (fun F => implRun it F it.init [] ops = some outs)

/-- The same, but only for histories in which a checkpoint of position `p` is restored into a used object only if
`used p` (restoring into a fresh object, the crash case, is always allowed). -/
def ResumesExactlyWhen (used : Nat → Bool) (it : Iter α) (xs : List (Py α)) (ended : Bool) : Prop :=
  ∀ ops outs, specRun xs ended used 0 [] ops = some outs → Ev (fun F => implRun it F it.init [] ops = some outs)

/-- The calls of `implRun` mixed with calls `T` that must not be noticed (e.g. changes of a prefetch buffer size).  An
exception in such a call is reported as `none`. -/
def implRunT {T : Type} (it : Iter α) (tweak : it.S → T → it.S × Option Err) (F : Nat) :
    it.S → List it.C → List (T ⊕ Op) → Option (List (Res α))
  | _, _, [] => some []
  | s, saved, .inl t :: ops =>
    match tweak s t with
    | (s, none) => implRunT it tweak F s saved ops
    | (_, some _) => none
  | s, saved, .inr .next :: ops => do
    let (s, r) ← it.next F s
    let rest ← implRunT it tweak F s saved ops
    some (r :: rest)
  | s, saved, .inr .save :: ops =>
    let (s, c) := it.get s
    implRunT it tweak F s (saved ++ [c]) ops
  | s, saved, .inr (.restore k) :: ops => do
    let c ← saved[k]?
    match (← it.set F s c) with
    | (s, none) => implRunT it tweak F s saved ops
    | (_, some _) => none
  | _, saved, .inr (.fresh k) :: ops => do
    let c ← saved[k]?
    match (← it.set F it.init c) with
    | (s, none) => implRunT it tweak F s saved ops
    | (_, some _) => none

/-- The calls other than tweaks. -/
def untweaked {T : Type} (ops : List (T ⊕ Op)) : List Op := ops.filterMap (fun o => o.getRight?)

/-! ### Compositional form -/

def toRes : Py α → Res α
  | .ok a => .item a
  | .error e => .fail e

/-- A simulation between object states and positions (`At`) and between checkpoints and positions (`Ck`). -/
structure Sim (it : Iter α) (xs : List (Py α)) (ended : Bool) (At : it.S → Nat → Prop) (Ck : it.C → Nat → Prop) :
    Prop where
  init : At it.init 0
  bound : ∀ {s n}, At s n → n ≤ xs.length
  next_item : ∀ {s n r}, At s n → xs[n]? = some r →
    ∃ s', Ev (fun F => it.next F s = some (s', toRes r)) ∧ At s' (n + 1)
  next_stop : ∀ {s}, At s xs.length → ended = true →
    ∃ s', Ev (fun F => it.next F s = some (s', .stop)) ∧ At s' xs.length
  get : ∀ {s n}, At s n → At (it.get s).1 n ∧ Ck (it.get s).2 n
  set : ∀ {s n c m}, At s n → Ck c m → m < xs.length ∨ ended = true →
    ∃ s', Ev (fun F => it.set F s c = some (s', none)) ∧ At s' m
  ck_bound : ∀ {c m}, Ck c m → m ≤ xs.length

/-- The same with the restriction on restoring into used objects. -/
structure SimWhen (used : Nat → Bool) (it : Iter α) (xs : List (Py α)) (ended : Bool) (At : it.S → Nat → Prop)
    (Ck : it.C → Nat → Prop) : Prop where
  init : At it.init 0
  bound : ∀ {s n}, At s n → n ≤ xs.length
  next_item : ∀ {s n r}, At s n → xs[n]? = some r →
    ∃ s', Ev (fun F => it.next F s = some (s', toRes r)) ∧ At s' (n + 1)
  next_stop : ∀ {s}, At s xs.length → ended = true →
    ∃ s', Ev (fun F => it.next F s = some (s', .stop)) ∧ At s' xs.length
  get : ∀ {s n}, At s n → At (it.get s).1 n ∧ Ck (it.get s).2 n
  set : ∀ {s n c m}, At s n → Ck c m → m < xs.length ∨ ended = true → used m = true →
    ∃ s', Ev (fun F => it.set F s c = some (s', none)) ∧ At s' m
  set_init : ∀ {c m}, Ck c m → m < xs.length ∨ ended = true →
    ∃ s', Ev (fun F => it.set F it.init c = some (s', none)) ∧ At s' m

theorem Sim.when {it : Iter α} {xs : List (Py α)} {ended : Bool} {At : it.S → Nat → Prop} {Ck : it.C → Nat → Prop}
    (h : Sim it xs ended At Ck) (used : Nat → Bool) : SimWhen used it xs ended At Ck :=
  { init := h.init, bound := h.bound, next_item := h.next_item, next_stop := h.next_stop, get := h.get,
    set := fun hs hc hm _ => h.set hs hc hm, set_init := fun hc hm => h.set h.init hc hm }

/-- "Correctly checkpointing": the hypothesis on parents.  It implies `ResumesExactly` (see `Resumes.exactly`). -/
def Resumes (it : Iter α) (xs : List (Py α)) (ended : Bool) : Prop :=
  ∃ (At : it.S → Nat → Prop) (Ck : it.C → Nat → Prop), Sim it xs ended At Ck

/-! ### Lemmas -/

theorem Ev.of_forall {P : Nat → Prop} (h : ∀ F, P F) : Ev P := ⟨0, fun F _ => h F⟩

theorem Ev.and {P Q : Nat → Prop} (hp : Ev P) (hq : Ev Q) : Ev (fun F => P F ∧ Q F) := by
  obtain ⟨k, hk⟩ := hp
  obtain ⟨l, hl⟩ := hq
  exact ⟨max k l, fun F hF => ⟨hk F (by omega), hl F (by omega)⟩⟩

theorem Ev.mono {P Q : Nat → Prop} (hp : Ev P) (h : ∀ F, P F → Q F) : Ev Q := by
  obtain ⟨k, hk⟩ := hp
  exact ⟨k, fun F hF => h F (hk F hF)⟩

theorem Ev.mono₂ {P Q R : Nat → Prop} (hp : Ev P) (hq : Ev Q) (h : ∀ F, P F → Q F → R F) : Ev R :=
  (hp.and hq).mono (fun F hh => h F hh.1 hh.2)

theorem Ev.ge {P : Nat → Prop} (k : Nat) (hp : Ev P) : Ev (fun F => k ≤ F ∧ P F) := by
  obtain ⟨l, hl⟩ := hp
  exact ⟨max k l, fun F hF => ⟨by omega, hl F (by omega)⟩⟩

theorem outcome_lt {xs : List (Py α)} {ended : Bool} {n : Nat} {r : Py α} (h : xs[n]? = some r) :
    outcome xs ended n = some (toRes r) := by
  unfold outcome
  rw [h]
  cases r <;> rfl

private theorem forall₂_getElem? {R : α → β → Prop} {l : List α} {v : List β}
    (hlen : l.length = v.length) (h : ∀ (i : Nat) a b, l[i]? = some a → v[i]? = some b → R a b) (k : Nat) (b : β)
    (hb : v[k]? = some b) : ∃ a, l[k]? = some a ∧ R a b := by
  have hk : k < v.length := by
    by_contra hc
    rw [List.getElem?_eq_none (by omega)] at hb
    cases hb
  have : l[k]? = some (l[k]'(by omega)) := List.getElem?_eq_getElem _
  exact ⟨_, this, h k _ b this hb⟩

theorem sim_run {it : Iter α} {xs : List (Py α)} {ended : Bool} {At : it.S → Nat → Prop} {Ck : it.C → Nat → Prop}
    {used : Nat → Bool} (sim : SimWhen used it xs ended At Ck) : ∀ (ops : List Op) (s : it.S) (pos : Nat) (saved : List it.C) (sp : List Nat)
    (outs : List (Res α)), At s pos → saved.length = sp.length →
    (∀ (i : Nat) c p, saved[i]? = some c → sp[i]? = some p → Ck c p) →
    specRun xs ended used pos sp ops = some outs → Ev (fun F => implRun it F s saved ops = some outs) := by
  intro ops
  induction ops with
  | nil =>
    intro s pos saved sp outs _ _ _ h
    simp only [specRun] at h
    exact Ev.of_forall (fun F => by simpa [implRun] using h)
  | cons op ops ih =>
    intro s pos saved sp outs hat hlen hck h
    cases op with
    | next =>
      simp only [specRun, Option.bind_eq_bind] at h
      cases ho : outcome xs ended pos with
      | none => rw [ho] at h; cases h
      | some r =>
        rw [ho, Option.bind_some] at h
        cases hr : specRun xs ended used (min xs.length (pos + 1)) sp ops with
        | none => rw [hr] at h; cases h
        | some rest =>
          rw [hr, Option.bind_some] at h
          cases h
          have hb := sim.bound hat
          cases hx : xs[pos]? with
          | some q =>
            have hlt : pos < xs.length := by
              by_contra hc
              rw [List.getElem?_eq_none (by omega)] at hx
              cases hx
            rw [outcome_lt hx] at ho
            cases ho
            obtain ⟨s', h1, h2⟩ := sim.next_item hat hx
            rw [Nat.min_eq_right (by omega)] at hr
            have h3 := ih s' (pos + 1) saved sp rest h2 hlen hck hr
            refine h1.mono₂ h3 ?_
            intro F e1 e2
            simp only [implRun, e1, Option.bind_eq_bind, Option.bind_some, e2]
          | none =>
            have hge : xs.length ≤ pos := by
              by_contra hc
              rw [List.getElem?_eq_getElem (by omega)] at hx
              cases hx
            have hpos : pos = xs.length := by omega
            subst hpos
            unfold outcome at ho
            rw [hx] at ho
            cases ended with
            | false => simp at ho
            | true =>
              simp at ho
              subst ho
              obtain ⟨s', h1, h2⟩ := sim.next_stop hat rfl
              rw [Nat.min_eq_left (by omega)] at hr
              have h3 := ih s' _ saved sp rest h2 hlen hck hr
              refine h1.mono₂ h3 ?_
              intro F e1 e2
              simp only [implRun, e1, Option.bind_eq_bind, Option.bind_some, e2]
    | save =>
      simp only [specRun] at h
      obtain ⟨g1, g2⟩ := sim.get hat
      have h3 := ih (it.get s).1 pos (saved ++ [(it.get s).2]) (sp ++ [pos]) outs g1 (by simp [hlen]) (by
        intro i c p hc hp
        by_cases hi : i < saved.length
        · rw [List.getElem?_append_left hi] at hc
          rw [List.getElem?_append_left (by omega)] at hp
          exact hck i c p hc hp
        · rw [List.getElem?_append_right (by omega)] at hc
          rw [List.getElem?_append_right (by omega)] at hp
          by_cases hi' : i - saved.length = 0
          · rw [hi'] at hc
            rw [← hlen, hi'] at hp
            cases hc; cases hp
            exact g2
          · rw [List.getElem?_eq_none (by simp; omega)] at hc
            cases hc) h
      refine h3.mono ?_
      intro F e
      simpa [implRun] using e
    | restore k =>
      simp only [specRun, Option.bind_eq_bind] at h
      cases hp : sp[k]? with
      | none => rw [hp] at h; cases h
      | some p =>
        rw [hp, Option.bind_some] at h
        split at h
        · rename_i hk
          obtain ⟨c, hc, hcp⟩ := forall₂_getElem? hlen hck k p hp
          obtain ⟨s', h1, h2⟩ := sim.set hat hcp hk.1 hk.2
          have h3 := ih s' p saved sp outs h2 hlen hck h
          refine h1.mono₂ h3 ?_
          intro F e1 e2
          simp only [implRun, hc, e1, Option.bind_eq_bind, Option.bind_some, e2]
        · cases h
    | fresh k =>
      simp only [specRun, Option.bind_eq_bind] at h
      cases hp : sp[k]? with
      | none => rw [hp] at h; cases h
      | some p =>
        rw [hp, Option.bind_some] at h
        split at h
        · rename_i hk
          obtain ⟨c, hc, hcp⟩ := forall₂_getElem? hlen hck k p hp
          obtain ⟨s', h1, h2⟩ := sim.set_init hcp hk
          have h3 := ih s' p saved sp outs h2 hlen hck h
          refine h1.mono₂ h3 ?_
          intro F e1 e2
          simp only [implRun, hc, e1, Option.bind_eq_bind, Option.bind_some, e2]
        · cases h

theorem sim_runT {T : Type} {it : Iter α} {tweak : it.S → T → it.S × Option Err} {xs : List (Py α)} {ended : Bool}
    {At : it.S → Nat → Prop} {Ck : it.C → Nat → Prop} (sim : Sim it xs ended At Ck)
    (htw : ∀ s n t, At s n → (tweak s t).2 = none ∧ At (tweak s t).1 n) :
    ∀ (ops : List (T ⊕ Op)) (s : it.S) (pos : Nat) (saved : List it.C) (sp : List Nat)
    (outs : List (Res α)), At s pos → saved.length = sp.length →
    (∀ (i : Nat) c p, saved[i]? = some c → sp[i]? = some p → Ck c p) →
    specRun xs ended (fun _ => true) pos sp (untweaked ops) = some outs →
    Ev (fun F => implRunT it tweak F s saved ops = some outs) := by
  intro ops
  induction ops with
  | nil =>
    intro s pos saved sp outs _ _ _ h
    simp only [untweaked, List.filterMap_nil, specRun] at h
    exact Ev.of_forall (fun F => by simpa [implRunT] using h)
  | cons op ops ih =>
    intro s pos saved sp outs hat hlen hck h
    cases op with
    | inl t =>
      have h' : specRun xs ended (fun _ => true) pos sp (untweaked ops) = some outs := h
      obtain ⟨t1, t2⟩ := htw s pos t hat
      refine (ih (tweak s t).1 pos saved sp outs t2 hlen hck h').mono ?_
      intro F e
      cases hh : tweak s t with
      | mk s' r =>
        rw [hh] at t1 e
        simp only at t1
        subst t1
        simp only [implRunT, hh, e]
    | inr op =>
      have hu : untweaked (.inr op :: ops) = op :: untweaked ops := rfl
      rw [hu] at h
      cases op with
      | next =>
        simp only [specRun, Option.bind_eq_bind] at h
        cases ho : outcome xs ended pos with
        | none => rw [ho] at h; cases h
        | some r =>
          rw [ho, Option.bind_some] at h
          cases hr : specRun xs ended (fun _ => true) (min xs.length (pos + 1)) sp (untweaked ops) with
          | none => rw [hr] at h; cases h
          | some rest =>
            rw [hr, Option.bind_some] at h
            cases h
            have hb := sim.bound hat
            cases hx : xs[pos]? with
            | some q =>
              have hlt : pos < xs.length := by
                by_contra hc
                rw [List.getElem?_eq_none (by omega)] at hx
                cases hx
              rw [outcome_lt hx] at ho
              cases ho
              obtain ⟨s', h1, h2⟩ := sim.next_item hat hx
              rw [Nat.min_eq_right (by omega)] at hr
              have h3 := ih s' (pos + 1) saved sp rest h2 hlen hck hr
              refine h1.mono₂ h3 ?_
              intro F e1 e2
              simp only [implRunT, e1, Option.bind_eq_bind, Option.bind_some, e2]
            | none =>
              have hge : xs.length ≤ pos := by
                by_contra hc
                rw [List.getElem?_eq_getElem (by omega)] at hx
                cases hx
              have hpos : pos = xs.length := by omega
              subst hpos
              unfold outcome at ho
              rw [hx] at ho
              cases ended with
              | false => simp at ho
              | true =>
                simp at ho
                subst ho
                obtain ⟨s', h1, h2⟩ := sim.next_stop hat rfl
                rw [Nat.min_eq_left (by omega)] at hr
                have h3 := ih s' _ saved sp rest h2 hlen hck hr
                refine h1.mono₂ h3 ?_
                intro F e1 e2
                simp only [implRunT, e1, Option.bind_eq_bind, Option.bind_some, e2]
      | save =>
        simp only [specRun] at h
        obtain ⟨g1, g2⟩ := sim.get hat
        have h3 := ih (it.get s).1 pos (saved ++ [(it.get s).2]) (sp ++ [pos]) outs g1 (by simp [hlen]) (by
          intro i c p hc hp
          by_cases hi : i < saved.length
          · rw [List.getElem?_append_left hi] at hc
            rw [List.getElem?_append_left (by omega)] at hp
            exact hck i c p hc hp
          · rw [List.getElem?_append_right (by omega)] at hc
            rw [List.getElem?_append_right (by omega)] at hp
            by_cases hi' : i - saved.length = 0
            · rw [hi'] at hc
              rw [← hlen, hi'] at hp
              cases hc; cases hp
              exact g2
            · rw [List.getElem?_eq_none (by simp; omega)] at hc
              cases hc) h
        refine h3.mono ?_
        intro F e
        simpa [implRunT] using e
      | restore k =>
        simp only [specRun, Option.bind_eq_bind] at h
        cases hp : sp[k]? with
        | none => rw [hp] at h; cases h
        | some p =>
          rw [hp, Option.bind_some] at h
          split at h
          · rename_i hk
            obtain ⟨c, hc, hcp⟩ := forall₂_getElem? hlen hck k p hp
            obtain ⟨s', h1, h2⟩ := sim.set hat hcp hk.1
            have h3 := ih s' p saved sp outs h2 hlen hck h
            refine h1.mono₂ h3 ?_
            intro F e1 e2
            simp only [implRunT, hc, e1, Option.bind_eq_bind, Option.bind_some, e2]
          · cases h
      | fresh k =>
        simp only [specRun, Option.bind_eq_bind] at h
        cases hp : sp[k]? with
        | none => rw [hp] at h; cases h
        | some p =>
          rw [hp, Option.bind_some] at h
          split at h
          · rename_i hk
            obtain ⟨c, hc, hcp⟩ := forall₂_getElem? hlen hck k p hp
            obtain ⟨s', h1, h2⟩ := sim.set sim.init hcp hk
            have h3 := ih s' p saved sp outs h2 hlen hck h
            refine h1.mono₂ h3 ?_
            intro F e1 e2
            simp only [implRunT, hc, e1, Option.bind_eq_bind, Option.bind_some, e2]
          · cases h

theorem Resumes.exactly {it : Iter α} {xs : List (Py α)} {ended : Bool} (h : Resumes it xs ended) :
    ResumesExactly it xs ended := by
  obtain ⟨At, Ck, sim⟩ := h
  intro ops outs ho
  exact sim_run (sim.when _) ops it.init 0 [] [] outs sim.init rfl (by intro i c p hc; simp at hc) ho

theorem SimWhen.exactly {used : Nat → Bool} {it : Iter α} {xs : List (Py α)} {ended : Bool} {At : it.S → Nat → Prop}
    {Ck : it.C → Nat → Prop} (sim : SimWhen used it xs ended At Ck) : ResumesExactlyWhen used it xs ended := by
  intro ops outs ho
  exact sim_run sim ops it.init 0 [] [] outs sim.init rfl (by intro i c p hc; simp at hc) ho

end Grain
