import Verif.Stack.TreeAheadLemmas
import Verif.Stack.AnchorRepeat
import Verif.Stack.AnchorPack
/-
How far window shuffle, flat_map and rebatch read ahead of their users.
-/
namespace Grain

/-- No restore is under way in the layer, nor below. -/
def AnTame {T : Anchor α β} {c : ConcIter α} (Q : c.S → Prop) (s : AnState T c) : Prop :=
  Q s.cs ∧ (∀ k, s.pc ≠ .rewind k) ∧ (∀ e, s.pc ≠ .setPar e) ∧ ∀ e, s.pc ≠ .setting e

theorem anchor_tame {T : Anchor α β} (hT : ∀ k m k', T.act k ≠ .back m k') {c : ConcIter α} {Q : c.S → Prop} (h : Tame c Q) :
    Tame (anchorOver T c) (AnTame Q) := by
  constructor
  · exact ⟨h.get h.init, fun _ h => (by cases h), fun _ h => (by cases h), fun _ h => (by cases h)⟩
  · rintro s t ⟨h1, h2, h3, h4⟩ hs
    cases hs with
    | below t ht => exact ⟨h.step h1 ht, h2, h3, h4⟩
    | ask k t _ _ ht => exact ⟨h.call h1 ht, fun _ h => (by cases h), fun _ h => (by cases h), fun _ h => (by cases h)⟩
    | got k r t _ ht => exact ⟨h.ret h1 ht, fun _ h => (by cases h), fun _ h => (by cases h), fun _ h => (by cases h)⟩
    | mark k m k' _ _ => exact ⟨h.get h1, fun _ h => (by cases h), fun _ h => (by cases h), fun _ h => (by cases h)⟩
    | copy k m m' k' _ _ => exact ⟨h1, fun _ h => (by cases h), fun _ h => (by cases h), fun _ h => (by cases h)⟩
    | back k m k' t _ ha _ => exact absurd ha (hT k m k')
    | rewound k t hp _ => exact absurd hp (h2 k)
    | setPar e t hp _ => exact absurd hp (h3 e)
    | setBack e t hp _ => exact absurd hp (h4 e)
  · rintro s t ⟨h1, -⟩ ⟨-, rfl⟩
    exact ⟨h1, fun _ h => (by cases h), fun _ h => (by cases h), fun _ h => (by cases h)⟩
  · rintro s r t ⟨h1, -⟩ ⟨k, d, -, -, rfl⟩
    exact ⟨h1, fun _ h => (by cases h), fun _ h => (by cases h), fun _ h => (by cases h)⟩
  · rintro s ⟨h1, h2⟩
    refine ⟨?_, h2⟩
    show Q (cond T.live (c.get s.cs).1 s.cs)
    cases T.live
    · exact h1
    · exact h.get h1

theorem anEval_le {T : Anchor α β} (hT : ∀ k m k', T.act k ≠ .back m k') {x : Nat → Option α} {f k i ρ o d j ρ'}
    (h : AnEval T x f k i ρ o d j ρ') : i ≤ j := by
  induction h with
  | ret _ => exact Nat.le_refl _
  | next _ _ ih => exact ((nextPos_le x _).1).trans ih
  | mark _ _ ih => exact ih
  | copy _ _ ih => exact ih
  | back ha _ _ => exact absurd ha (hT _ _ _)

theorem anchor_leads {T : Anchor α β} (hT : ∀ k m k', T.act k ≠ .back m k') {c : ConcIter α} {x : Nat → Option α}
    {y : Nat → Option β} {I : Nat → CMode → c.S → Prop} {Q : c.S → Prop} {K : Nat → c.C → Prop}
    {At : Nat → Nat → (Fin (T.r + 1) → Nat) → T.D → Prop} {src : c.S → Nat}
    {most g : Nat → Nat} (hl : Leads x (Along I Q) src most) (hg : ∀ {a b}, a ≤ b → g a ≤ g b)
    (hat : ∀ {n i ρ d}, At n i ρ d → i ≤ g n) :
    Leads (c := anchorOver T c) y (Along (fun n m s => ∃ w, AnInv x y I K At n m w s) (AnTame Q)) (fun s => src s.cs)
      (fun n => most (g n)) := by
  constructor
  · intro a b hab
    exact hl.mono (hg hab)
  · rintro n s ⟨⟨w, hs⟩, hq, -⟩
    obtain ⟨-, i, ρ, h1, hi, -⟩ := anInv_idle hs
    exact (hl.idle ⟨hi, hq⟩).trans (hl.mono (hat h1))
  · rintro n s ⟨⟨w, hs⟩, hq, h2, h3, h4⟩
    rcases s with ⟨cs, regs, loc, pc⟩
    cases pc with
    | idle => cases hs.1
    | run k =>
      obtain ⟨f, i, ρ, o, d, j, ρ', -, e, ⟨-, hg'⟩, hi, -⟩ := hs
      exact (hl.idle ⟨hi, hq⟩).trans (hl.mono ((anEval_le hT e).trans (hat hg')))
    | wait k =>
      obtain ⟨f, i, ρ, o, d, j, ρ', -, e, ⟨-, hg'⟩, hi, -⟩ := hs
      exact (hl.next ⟨hi, hq⟩).trans (hl.mono ((anEval_le hT e).trans (hat hg')))
    | rewind k => exact absurd rfl (h2 k)
    | setPar e => exact absurd rfl (h3 e)
    | setting e => exact absurd rfl (h4 e)

theorem winAnchor_onward (shuffle : Nat → List α → List α) (w : Nat) : ∀ k m k', (winAnchor shuffle w).act k ≠ .back m k' := by
  intro (k : WinK α) m k'
  cases k <;> intro h <;> cases h

theorem winAt_le {shuffle : Nat → List α → List α} {w : Nat} {x : Nat → Option α} {n i : Nat} {ρ : Fin 1 → Nat} {d : WinLoc α}
    (h : WinAt shuffle w x n i ρ d) : i ≤ n + w := by
  rcases h with ⟨-, -, -, rfl, -⟩ | ⟨b, p, -, rfl, rfl, -, -⟩ | ⟨b, -, rfl, rfl, -, -⟩
  · omega
  · have := winBlock_le (w := w) (x := x) (b := b)
    omega
  · omega

theorem flatMapAnchor_onward (f : α → List β) : ∀ k m k', (flatMapAnchor f).act k ≠ .back m k' := by
  intro (k : FmK β) m k'
  cases k with
  | head d => dsimp only [flatMapAnchor]; cases d.buf[d.idx]? <;> intro h <;> cases h
  | read => intro h; cases h
  | out => intro h; cases h

theorem rebatchAnchor_onward (b : Nat) (drop : Bool) : ∀ k m k', (rebatchAnchor (α := α) b drop).act k ≠ .back m k' := by
  intro (k : RbK α) m k'
  cases k <;> intro h <;> cases h

theorem concats_le {x : Nat → Option (List α)} {r : Nat → Option α} {first : Nat → Nat} (h : Concats x r first)
    (hx : StaysOver x) : ∀ k, (∀ q, k = q + 1 → x q ≠ none) → k ≤ first k := by
  intro k
  induction k with
  | zero => intro _; omega
  | succ k ih =>
    intro hk
    obtain ⟨a, ha⟩ := Option.ne_none_iff_exists'.1 (hk k rfl)
    obtain ⟨h1, h2, -⟩ := h.block k a ha
    have := ih (fun q hq hn => by
      subst hq
      rw [hx q hn] at ha
      cases ha)
    have := List.length_pos_iff.2 h1
    omega

theorem rbAt_le {b : Nat} {drop : Bool} {x : Nat → Option (List α)} {r : Nat → Option α} {first : Nat → Nat} (h : Concats x r first)
    (hx : StaysOver x) (hb : 0 < b) {n i : Nat} {ρ : Fin 1 → Nat} {d : RbLoc α} (hat : RbAt b drop x r first n i ρ d) : i ≤ n * b + b := by
  rcases hat with ⟨a, h1, h2, h3, h4⟩ | ⟨h1, h2, h3, h4, h5, h6⟩
  · have := concats_le h hx (ρ 0) (fun q hq hn => by
      rw [hq, hx q hn] at h1
      cases h1)
    rcases h4 with ⟨-, rfl⟩ | ⟨-, rfl⟩ <;> omega
  · have := concats_le h hx i h5
    rw [Nat.add_mul] at h6
    omega

theorem fmAt_le {f : α → List β} {x : Nat → Option α} {first g : Nat → Nat} (hg : ∀ k n, first k ≤ n → k + 1 ≤ g n) {n i : Nat}
    {ρ : Fin 1 → Nat} {d : FmLoc β} (hat : FmAt f x first n i ρ d) : i ≤ g n := by
  rcases hat with ⟨rfl, rfl, -, -⟩ | ⟨k, a, p, -, -, rfl, rfl, -, -⟩
  · omega
  · exact hg k _ (by omega)

end Grain
