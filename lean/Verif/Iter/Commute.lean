import Verif.Iter.SpecCommute
import Verif.Iter.PropsCheckpoint
/-
Lemmas for C86.
-/
namespace Grain

theorem implRun_none_of_specRun {it : Iter α} {ys : List (Py α)} (F : Nat) : ∀ (ops : List Op) (s : it.S) (saved : List it.C) (pos : Nat)
    (ps : List Nat), saved.length = ps.length → specRun ys true (fun _ => true) pos ps ops = none → implRun it F s saved ops = none := by
  intro ops
  induction ops with
  | nil => intro _ _ _ _ _ h; cases h
  | cons o ops ih =>
    intro s saved pos ps hl h
    cases o with
    | next =>
      have ho : ∃ r, outcome ys true pos = some r := by
        unfold outcome
        split <;> simp
      obtain ⟨r, hr⟩ := ho
      simp only [specRun, hr, Option.bind_eq_bind, Option.bind_some] at h
      cases hs : specRun ys true (fun _ => true) (min ys.length (pos + 1)) ps ops with
      | some outs => rw [hs] at h; cases h
      | none =>
        simp only [implRun, Option.bind_eq_bind]
        cases hn : it.next F s with
        | none => rfl
        | some q =>
          simp only [Option.bind_some]
          rw [ih _ saved _ ps hl hs]
          rfl
    | save =>
      simp only [specRun] at h
      simp only [implRun]
      exact ih _ _ _ _ (by simp [hl]) h
    | restore k =>
      simp only [specRun, Option.bind_eq_bind] at h
      simp only [implRun, Option.bind_eq_bind]
      cases hk : saved[k]? with
      | none => rfl
      | some c =>
        have hk' : k < ps.length := by rw [← hl]; exact (List.getElem?_eq_some_iff.1 hk).1
        simp only [List.getElem?_eq_getElem hk', Option.bind_some] at h
        rw [if_pos (by simp)] at h
        simp only [Option.bind_some]
        cases hset : it.set F s c with
        | none => rfl
        | some q =>
          obtain ⟨s', e⟩ := q
          cases e with
          | some e => rfl
          | none => exact ih s' saved _ ps hl h
    | fresh k =>
      simp only [specRun, Option.bind_eq_bind] at h
      simp only [implRun, Option.bind_eq_bind]
      cases hk : saved[k]? with
      | none => rfl
      | some c =>
        have hk' : k < ps.length := by rw [← hl]; exact (List.getElem?_eq_some_iff.1 hk).1
        simp only [List.getElem?_eq_getElem hk', Option.bind_some] at h
        rw [if_pos (by simp)] at h
        simp only [Option.bind_some]
        cases hset : it.set F it.init c with
        | none => rfl
        | some q =>
          obtain ⟨s', e⟩ := q
          cases e with
          | some e => rfl
          | none => exact ih s' saved _ ps hl h

theorem Ev.common {P Q : Nat → Prop} (h1 : Ev P) (h2 : Ev Q) : ∃ F, P F ∧ Q F := by
  obtain ⟨k, hk⟩ := h1
  obtain ⟨l, hl⟩ := h2
  exact ⟨max k l, hk _ (by omega), hl _ (by omega)⟩

/-- Iterators with the same outcomes are indistinguishable. -/
theorem sameIteration_of_stream {a b : Iter α} {ys : List (Py α)} (ha : ResumesExactly a ys true) (hb : ResumesExactly b ys true) :
    SameIteration a b := by
  intro ops outs
  cases hs : specRun ys true (fun _ => true) 0 [] ops with
  | none =>
    have hn : ∀ (it : Iter α), ¬ Ev (fun F => implRun it F it.init [] ops = some outs) := by
      rintro it ⟨k, hk⟩
      have : implRun it k it.init [] ops = some outs := hk k (Nat.le_refl _)
      rw [implRun_none_of_specRun k ops it.init [] 0 [] rfl hs] at this
      cases this
    exact ⟨fun h => absurd h (hn a), fun h => absurd h (hn b)⟩
  | some outs' =>
    have h1 := ha ops outs' hs
    have h2 := hb ops outs' hs
    constructor
    · intro h
      obtain ⟨F, e1, e2⟩ := Ev.common h h1
      rw [e1] at e2
      cases e2
      exact h2
    · intro h
      obtain ⟨F, e1, e2⟩ := Ev.common h h2
      rw [e1] at e2
      cases e2
      exact h1

/-- Iterators with different outcomes are told apart by calling `next`. -/
theorem not_sameIteration_of_stream {a b : Iter α} {ys zs : List (Py α)} (ha : ResumesExactly a ys true) (hb : ResumesExactly b zs true)
    (hne : ys ≠ zs) : ¬ SameIteration a b := by
  intro h
  have key : ∀ {a b : Iter α} {ys zs : List (Py α)}, ResumesExactly a ys true → ResumesExactly b zs true → SameIteration a b →
      ys.length ≤ zs.length → ys = zs := by
    intro a b ys zs ha hb h hle
    have h1 := (plain_iteration ha).2 rfl (zs.length - ys.length)
    have h2 := (plain_iteration hb).1
    rw [show ys.length + (zs.length - ys.length) = zs.length by omega] at h1
    obtain ⟨F, e1, e2⟩ := Ev.common ((h _ _).1 h1) h2
    rw [e1] at e2
    have e := Option.some.inj e2
    have hl : ys.length = zs.length := by
      by_contra hlt
      have e3 := congrArg (fun l => l[ys.length]?) e
      rw [List.getElem?_append_right (by simp), List.getElem?_map, List.length_map, Nat.sub_self, List.getElem?_replicate,
        if_pos (by omega), List.getElem?_eq_getElem (by omega)] at e3
      have e4 := Option.some.inj e3
      cases hz : zs[ys.length]'(by omega) <;> rw [hz] at e4 <;> cases e4
    rw [hl, Nat.sub_self, List.replicate_zero, List.append_nil] at e
    have hinj : Function.Injective (toRes (α := α)) := by
      intro x y hxy
      cases x <;> cases y <;> simp [toRes] at hxy <;> rw [hxy]
    exact List.map_injective_iff.2 hinj e
  rcases Nat.le_total ys.length zs.length with hl | hl
  · exact hne (key ha hb h hl)
  · exact hne (key hb ha (fun ops outs => (h ops outs).symm) hl).symm

/-- `to_iter_dataset` of a dataset that can be read. -/
theorem toIter_resumes {ds : MapDs α} {vs : List (Option α)} (hr : Reads ds vs) (size threads : Nat) :
    Resumes (prefetchIter size threads false none ds) ((vs.filter Option.isSome).map Except.ok) true := by
  have sim := prefetchIter_sim (allow := false) size threads true [] (by simp) (by have := hr.1; omega) hr.2 (fun _ => ⟨hr.1, rfl⟩) (by simp)
  simp only [List.map_nil, List.append_nil] at sim
  exact ⟨_, _, sim⟩

end Grain
