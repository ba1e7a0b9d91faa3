import Verif.Iter.Basic
import Mathlib.Tactic.Choose
/-
Correctly checkpointing iterators over one stream, finite or endless: `x n` is the outcome of call number `n` of a fresh
iterator, `none` meaning that the stream is over.  Used as the hypothesis on parents in the models of concurrent
transformations, which read ahead of the user.
-/
namespace Grain

/-- Outcome of `next` at position `n` of the stream. -/
def streamRes (x : Nat → Option (Py α)) (n : Nat) : Res α :=
  match x n with
  | some r => toRes r
  | none => .stop

/-- Position after it. -/
def streamPos (x : Nat → Option (Py α)) (n : Nat) : Nat :=
  match x n with
  | some _ => n + 1
  | none => n

structure SimStream (it : Iter α) (x : Nat → Option (Py α)) (At : it.S → Nat → Prop) (Ck : it.C → Nat → Prop) : Prop where
  init : At it.init 0
  next : ∀ {s n}, At s n → ∃ s', Ev (fun F => it.next F s = some (s', streamRes x n)) ∧ At s' (streamPos x n)
  get : ∀ {s n}, At s n → At (it.get s).1 n ∧ Ck (it.get s).2 n
  set : ∀ {s n c m}, At s n → Ck c m → ∃ s', Ev (fun F => it.set F s c = some (s', none)) ∧ At s' m

/-- The iterator reads the stream `x` and resumes exactly from its checkpoints. -/
def ResumesStream (it : Iter α) (x : Nat → Option (Py α)) : Prop :=
  ∃ (At : it.S → Nat → Prop) (Ck : it.C → Nat → Prop), SimStream it x At Ck

theorem Ev.const {P : Prop} (h : Ev (fun _ => P)) : P := by
  obtain ⟨k, hk⟩ := h
  exact hk k (Nat.le_refl _)

/-- Finite streams. -/
theorem Resumes.stream {it : Iter α} {xs : List (Py α)} (h : Resumes it xs true) : ResumesStream it (fun n => xs[n]?) := by
  obtain ⟨At, Ck, h⟩ := h
  refine ⟨At, Ck, { init := h.init, next := ?_, get := h.get, set := fun h1 h2 => h.set h1 h2 (Or.inr rfl) }⟩
  intro s n hs
  have hb := h.bound hs
  cases hx : xs[n]? with
  | some r =>
    obtain ⟨s', e1, e2⟩ := h.next_item hs hx
    exact ⟨s', by simpa only [streamRes, hx] using e1, by simpa only [streamPos, hx] using e2⟩
  | none =>
    have : xs.length ≤ n := List.getElem?_eq_none_iff.1 hx
    have hn : n = xs.length := by omega
    subst hn
    obtain ⟨s', e1, e2⟩ := h.next_stop hs rfl
    exact ⟨s', by simpa only [streamRes, hx] using e1, by simpa only [streamPos, hx] using e2⟩

/-- Endless streams, from the statement for every prefix. -/
theorem Resumes.streamEndless {it : Iter α} {x : Nat → Py α} (h : ∀ N, Resumes it ((List.range N).map x) false) :
    ResumesStream it (fun n => some (x n)) := by
  choose At Ck hsim using h
  have hget : ∀ N n, n < N → ((List.range N).map x)[n]? = some (x n) := by
    intro N n hn
    simp [hn]
  refine ⟨fun s n => ∃ N0, ∀ N, N0 ≤ N → At N s n, fun c n => ∃ N0, ∀ N, N0 ≤ N → Ck N c n, ?_⟩
  constructor
  · exact ⟨0, fun N _ => (hsim N).init⟩
  · rintro s n ⟨N0, hN⟩
    obtain ⟨s', e1, e2⟩ := (hsim (max N0 (n + 1))).next_item (hN _ (by omega)) (hget _ n (by omega))
    refine ⟨s', e1, max N0 (n + 1), ?_⟩
    intro N hle
    obtain ⟨s'', f1, f2⟩ := (hsim N).next_item (hN _ (by omega)) (hget _ n (by omega))
    have : s'' = s' := by
      refine Ev.const (e1.mono₂ f1 ?_)
      intro F a b
      rw [a] at b
      cases b
      rfl
    rw [← this]
    exact f2
  · rintro s n ⟨N0, hN⟩
    exact ⟨⟨N0, fun N hle => ((hsim N).get (hN N hle)).1⟩, ⟨N0, fun N hle => ((hsim N).get (hN N hle)).2⟩⟩
  · rintro s n c m ⟨N0, hN⟩ ⟨N1, hM⟩
    have hlen : ∀ N, m < N → m < ((List.range N).map x).length := by
      intro N hm
      simpa using hm
    obtain ⟨s', e1, e2⟩ := (hsim (max (max N0 N1) (m + 1))).set (hN _ (by omega)) (hM _ (by omega))
      (Or.inl (hlen _ (by omega)))
    refine ⟨s', e1, max (max N0 N1) (m + 1), ?_⟩
    intro N hle
    obtain ⟨s'', f1, f2⟩ := (hsim N).set (hN _ (by omega)) (hM _ (by omega)) (Or.inl (hlen _ (by omega)))
    have : s'' = s' := by
      refine Ev.const (e1.mono₂ f1 ?_)
      intro F a b
      rw [a] at b
      cases b
      rfl
    rw [← this]
    exact f2

end Grain
