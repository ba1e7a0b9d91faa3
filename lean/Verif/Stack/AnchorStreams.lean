import Verif.Stack.AnchorLemmas
import Verif.Stack.Streams
/-
The streams of the transformations that keep states of their parent.
-/
namespace Grain

/-! ### Window shuffle -/

section
variable {shuffle : Nat → List α → List α} {w : Nat} {x : Nat → Option α}

/-- The elements of window `b`. -/
def winBlock (w : Nat) (x : Nat → Option α) (b : Nat) : List α := batchPrefix w x b w

/-- Window `b` in the order in which it is read. -/
def winPerm (shuffle : Nat → List α → List α) (w : Nat) (x : Nat → Option α) (b : Nat) : List α :=
  (shuffle b (winBlock w x b)).reverse

theorem update_zero (ρ : Fin 1 → Nat) (i : Nat) : Function.update ρ 0 i 0 = i := Function.update_self ..

theorem winBlock_le : (winBlock w x b).length ≤ w := by
  unfold winBlock batchPrefix
  exact le_trans (List.length_filterMap_le _ _) (by simp)

theorem streamWindows_eq {b p : Nat} (hp : p < w) : streamWindows shuffle w x (b * w + p) = (winPerm shuffle w x b)[p]? := by
  have h1 : (b * w + p) / w = b := by
    rw [Nat.mul_comm, Nat.mul_add_div (by omega), Nat.div_eq_of_lt hp, Nat.add_zero]
  have h2 : (b * w + p) % w = p := by
    rw [Nat.mul_comm, Nat.mul_add_mod, Nat.mod_eq_of_lt hp]
  unfold streamWindows
  rw [h1, h2]
  rfl

/-- A short window ends where the stream ends, a full one has no end in it. -/
theorem winBlock_length (h : StaysOver x) (b : Nat) :
    ∀ q, q ≤ w → (batchPrefix w x b q).length = q ∨
      ((batchPrefix w x b q).length < q ∧ x (b * w + (batchPrefix w x b q).length) = none) := by
  intro q
  induction q with
  | zero => intro _; left; rfl
  | succ q ih =>
    intro hq
    rw [batchPrefix_succ]
    cases hx : x (b * w + q) with
    | some a =>
      rcases ih (by omega) with h1 | ⟨h1, h2⟩
      · left; simp [h1]
      · have := h.le h2 (m := b * w + q) (by omega)
        rw [this] at hx; cases hx
    | none =>
      right
      rcases ih (by omega) with h1 | ⟨h1, h2⟩
      · simp only [Option.toList_none, List.append_nil]
        exact ⟨by omega, by rw [h1]; exact hx⟩
      · simp only [Option.toList_none, List.append_nil]
        exact ⟨by omega, h2⟩

theorem winBlock_short (h : StaysOver x) {b : Nat} (hb : (winBlock w x b).length < w) :
    x (b * w + (winBlock w x b).length) = none := by
  rcases winBlock_length (w := w) h b w le_rfl with h1 | ⟨-, h2⟩
  · unfold winBlock at hb; omega
  · exact h2

theorem win_fill (h : StaysOver x) {b : Nat} {set : Bool} {d : WinLoc α} {f : Nat} {o : Option α} {e : WinLoc α} {j : Nat}
    {ρ ρ' : Fin 1 → Nat}
    (he : AnEval (winAnchor shuffle w) x f (winFilled shuffle set d (winBlock w x b) (decide ((winBlock w x b).length < w)))
      (b * w + (winBlock w x b).length) ρ o e j ρ') :
    ∀ r q, q + r = w → 0 < r → (batchPrefix w x b q).length = q →
      ∃ f', AnEval (winAnchor shuffle w) x f' (.fill set d (batchPrefix w x b q)) (b * w + q) ρ o e j ρ' := by
  intro r
  induction r with
  | zero => intro q _ h0; omega
  | succ r ih =>
    intro q hq _ hlen
    cases hx : x (b * w + q) with
    | none =>
      have hblk : winBlock w x b = batchPrefix w x b q := batchPrefix_over h hx w (by omega)
      have hl : (winBlock w x b).length = q := by rw [hblk, hlen]
      rw [hl] at he
      refine ⟨f + 1, .next rfl ?_⟩
      have hn : nextPos x (b * w + q) = b * w + q := by simp [nextPos, hx]
      have hr : (winAnchor shuffle w).resume (WinK.fill set d (batchPrefix w x b q)) (x (b * w + q)) =
          winFilled shuffle set d (winBlock w x b) (decide (q < w)) := by
        rw [hx, hblk, decide_eq_true (by omega)]; rfl
      rw [hn, hr]
      exact he
    | some a =>
      have hpre : batchPrefix w x b (q + 1) = batchPrefix w x b q ++ [a] := by rw [batchPrefix_succ, hx]; rfl
      have hn : nextPos x (b * w + q) = b * w + (q + 1) := by simp [nextPos, hx]; omega
      by_cases hlt : q + 1 < w
      · obtain ⟨f', h1⟩ := ih (q + 1) (by omega) (by omega) (by rw [hpre]; simp [hlen])
        refine ⟨f' + 1, .next rfl ?_⟩
        have hr : (winAnchor shuffle w).resume (WinK.fill set d (batchPrefix w x b q)) (x (b * w + q)) =
            WinK.fill set d (batchPrefix w x b (q + 1)) := by
          rw [hx, hpre]
          exact if_pos (by omega)
        rw [hn, hr]
        exact h1
      · have hqw : q + 1 = w := by omega
        have hblk : winBlock w x b = batchPrefix w x b q ++ [a] := by unfold winBlock; rw [← hpre, hqw]
        have hl : (winBlock w x b).length = w := by rw [hblk]; simp [hlen, hqw]
        rw [hl] at he
        refine ⟨f + 1, .next rfl ?_⟩
        have hr : (winAnchor shuffle w).resume (WinK.fill set d (batchPrefix w x b q)) (x (b * w + q)) =
            winFilled shuffle set d (winBlock w x b) (decide (w < w)) := by
          rw [hx, hblk, decide_eq_false (by omega)]
          exact if_neg (by omega)
        rw [hn, hr, hqw]
        exact he

/-- Where a window shuffle is after `n` elements: between two windows, within a window, or at the end. -/
def WinAt (shuffle : Nat → List α → List α) (w : Nat) (x : Nat → Option α) (n i : Nat) (ρ : Fin 1 → Nat) (d : WinLoc α) : Prop :=
  (d.window = [] ∧ d.exhausted = false ∧ n = d.index * w ∧ i = n ∧
    ((ρ 0 = 0 ∧ d.index = 0 ∧ d.pos = 0) ∨
     ∃ b, d.index = b + 1 ∧ ρ 0 = b * w ∧ d.pos = w ∧ (winBlock w x b).length = w)) ∨
  (∃ b p, p < (winBlock w x b).length ∧ n = b * w + p ∧ i = b * w + (winBlock w x b).length ∧ ρ 0 = b * w ∧
    d = { index := b, pos := p, window := (winPerm shuffle w x b).drop p, exhausted := decide ((winBlock w x b).length < w) }) ∨
  (∃ b, (winBlock w x b).length < w ∧ n = b * w + (winBlock w x b).length ∧ i = n ∧ ρ 0 = b * w ∧
    d = { index := if (winBlock w x b).length = 0 then b else b + 1, pos := (winBlock w x b).length, window := [],
          exhausted := true })

theorem win_take (hs : ∀ i l, (shuffle i l).length = l.length) {b p : Nat} {ρ : Fin 1 → Nat} (hp : p < (winBlock w x b).length)
    (hρ : ρ 0 = b * w) {d : WinLoc α}
    (hd : d = { index := b, pos := p, window := (winPerm shuffle w x b).drop p, exhausted := decide ((winBlock w x b).length < w) }) :
    ∃ d', winTake d = .out (streamWindows shuffle w x (b * w + p)) d' ∧
      WinAt shuffle w x (nextPos (streamWindows shuffle w x) (b * w + p)) (b * w + (winBlock w x b).length) ρ d' := by
  have hlw : (winBlock w x b).length ≤ w := winBlock_le
  have hlen : (winPerm shuffle w x b).length = (winBlock w x b).length := by simp [winPerm, hs]
  have hpl : p < (winPerm shuffle w x b).length := by omega
  have hy : streamWindows shuffle w x (b * w + p) = some ((winPerm shuffle w x b)[p]) := by
    rw [streamWindows_eq (by omega), List.getElem?_eq_getElem hpl]
  have hn : nextPos (streamWindows shuffle w x) (b * w + p) = b * w + (p + 1) := by simp [nextPos, hy]; omega
  have hw : d.window = (winPerm shuffle w x b)[p] :: (winPerm shuffle w x b).drop (p + 1) := by
    rw [hd]
    exact List.drop_eq_getElem_cons hpl
  rw [hn, hy]
  unfold winTake
  rw [hw]
  refine ⟨_, rfl, ?_⟩
  rw [hd]
  by_cases hlast : p + 1 < (winBlock w x b).length
  · refine Or.inr (Or.inl ⟨b, p + 1, hlast, rfl, rfl, hρ, ?_⟩)
    have : ((winPerm shuffle w x b).drop (p + 1)).isEmpty = false := by
      rw [List.isEmpty_eq_false_iff]
      intro h0
      have := congrArg List.length h0
      simp at this
      omega
    simp [this]
  · have hnil : (winPerm shuffle w x b).drop (p + 1) = [] := by
      rw [List.drop_eq_nil_iff]; omega
    have hpe : p + 1 = (winBlock w x b).length := by omega
    by_cases hfull : (winBlock w x b).length = w
    · refine Or.inl ⟨hnil, ?_, ?_, ?_, Or.inr ⟨b, ?_, hρ, ?_, hfull⟩⟩
      · simp [hfull]
      · simp only [hnil, List.isEmpty_nil, if_true, Nat.add_mul, Nat.one_mul]
        omega
      · omega
      · simp [hnil]
      · show p + 1 = w; omega
    · refine Or.inr (Or.inr ⟨b, by omega, by omega, by omega, hρ, ?_⟩)
      have h0 : (winBlock w x b).length ≠ 0 := by omega
      have h1 : (winBlock w x b).length < w := by omega
      rw [hnil, if_neg h0, decide_eq_true h1, hpe]
      rfl

theorem winAnchor_computes (hw : 0 < w) (hs : ∀ i l, (shuffle i l).length = l.length) (h : StaysOver x) :
    AnComputes (winAnchor shuffle w) x (streamWindows shuffle w x) (WinAt shuffle w x) := by
  have hnil : ∀ i, shuffle i [] = [] := fun i => List.length_eq_zero_iff.1 (by rw [hs]; rfl)
  have hlen : ∀ b, (winPerm shuffle w x b).length = (winBlock w x b).length := fun b => by simp [winPerm, hs]
  constructor
  · exact Or.inl ⟨rfl, rfl, by show 0 = 0 * w; omega, rfl, Or.inl ⟨rfl, rfl, rfl⟩⟩
  · rintro n i ρ d (⟨h1, h2, h3, rfl, -⟩ | ⟨b, p, hp, rfl, rfl, hρ, rfl⟩ | ⟨b, hb, rfl, rfl, hρ, rfl⟩)
    · have hst : (winAnchor shuffle w).start d = WinK.keep d := by
        show (if d.window.isEmpty then _ else _) = _
        rw [h1, h2]; rfl
      have hact : (winAnchor shuffle w).act (WinK.keep d) = .mark 0 (WinK.fill false d []) := by
        show AnAct.mark 0 _ = _
        rw [if_neg (by omega)]
        rfl
      rw [hst]
      obtain ⟨b, hb⟩ : ∃ b, b = d.index := ⟨_, rfl⟩
      rw [← hb] at h3
      have hfill : winFilled shuffle false d (winBlock w x b) (decide ((winBlock w x b).length < w)) =
          winTake { index := b, pos := 0, window := winPerm shuffle w x b, exhausted := decide ((winBlock w x b).length < w) } := by
        unfold winFilled
        simp [h2, hb, winPerm]
      have key : ∀ o e, winTake { index := b, pos := 0, window := winPerm shuffle w x b, exhausted := decide ((winBlock w x b).length < w) }
          = .out o e → ∃ f, AnEval (winAnchor shuffle w) x f (WinK.keep d) i ρ o e (b * w + (winBlock w x b).length)
            (Function.update ρ 0 i) := by
        intro o e ht
        obtain ⟨f', hf'⟩ := win_fill (shuffle := shuffle) (w := w) h (b := b) (set := false) (d := d) (f := 0) (o := o) (e := e)
          (j := b * w + (winBlock w x b).length) (ρ := Function.update ρ 0 i) (ρ' := Function.update ρ 0 i)
          (by rw [hfill, ht]; exact .ret rfl) w 0 (by omega) hw rfl
        refine ⟨f' + 1, .mark hact ?_⟩
        rw [h3]
        rw [h3] at hf'
        exact hf'
      by_cases h0 : (winBlock w x b).length = 0
      · have hwp : winPerm shuffle w x b = [] := List.length_eq_zero_iff.1 (by rw [hlen, h0])
        have hy : streamWindows shuffle w x i = none := by
          rw [h3]
          have := streamWindows_eq (shuffle := shuffle) (x := x) (b := b) hw
          rw [Nat.add_zero] at this
          rw [this, hwp]; rfl
        have hn : nextPos (streamWindows shuffle w x) i = i := by simp [nextPos, hy]
        have ht : winTake { index := b, pos := 0, window := winPerm shuffle w x b, exhausted := decide ((winBlock w x b).length < w) } =
            WinK.out none { index := b, pos := 0, window := [], exhausted := true } := by
          rw [hwp, h0, decide_eq_true hw]; rfl
        obtain ⟨f, hf⟩ := key _ _ ht
        refine ⟨f, _, _, _, by rw [hy]; exact hf, Or.inr (Or.inr ⟨b, by omega, by omega, by omega, ?_, ?_⟩)⟩
        · exact (update_zero ρ i).trans h3
        · rw [if_pos h0, h0]
      · obtain ⟨d', ht, ha⟩ := win_take (shuffle := shuffle) (w := w) (x := x) hs (b := b) (p := 0) (ρ := Function.update ρ 0 i)
          (by omega) ((update_zero ρ i).trans h3) rfl
        rw [Nat.add_zero] at ht ha
        obtain ⟨f, hf⟩ := key _ _ ht
        refine ⟨f, d', b * w + (winBlock w x b).length, Function.update ρ 0 i, ?_, ?_⟩
        · have : streamWindows shuffle w x (b * w) = streamWindows shuffle w x i := by rw [h3]
          rw [this] at hf
          exact hf
        · have : nextPos (streamWindows shuffle w x) (b * w) = nextPos (streamWindows shuffle w x) i := by rw [h3]
          rw [this] at ha
          exact ha
    · obtain ⟨d', ht, ha⟩ := win_take (shuffle := shuffle) (w := w) (x := x) hs hp hρ rfl
      refine ⟨0, d', _, ρ, ?_, ha⟩
      have hst : (winAnchor shuffle w).start
          { index := b, pos := p, window := (winPerm shuffle w x b).drop p, exhausted := decide ((winBlock w x b).length < w) } =
          WinK.out (streamWindows shuffle w x (b * w + p)) d' := by
        rw [← ht]
        refine if_neg ?_
        show ¬ ((winPerm shuffle w x b).drop p).isEmpty = true
        rw [List.isEmpty_iff, List.drop_eq_nil_iff, hlen]
        omega
      rw [hst]
      exact .ret rfl
    · have hy : streamWindows shuffle w x (b * w + (winBlock w x b).length) = none := by
        rw [streamWindows_eq hb, List.getElem?_eq_none (by rw [hlen])]
      have hn : nextPos (streamWindows shuffle w x) (b * w + (winBlock w x b).length) = b * w + (winBlock w x b).length := by
        simp [nextPos, hy]
      rw [hy, hn]
      exact ⟨0, _, _, ρ, .ret rfl, Or.inr (Or.inr ⟨b, hb, rfl, rfl, hρ, rfl⟩)⟩
  · have hset : ∀ (d : WinLoc α) (e : Nat × Nat), (winAnchor shuffle w).onSet d e =
        WinK.fill true { d with index := e.1, pos := e.2, exhausted := false } [] := by
      intro d e
      exact if_neg (by omega)
    have key : ∀ (d : WinLoc α) (idx pos b i0 : Nat) (_ : i0 = b * w) (ρ : Fin 1 → Nat), ∃ f,
        AnEval (winAnchor shuffle w) x f ((winAnchor shuffle w).onSet d (idx, pos)) i0 ρ none
          { index := idx, pos := pos, exhausted := decide ((winBlock w x b).length < w),
            window := ((shuffle idx (winBlock w x b)).reverse).drop (min pos (winBlock w x b).length) }
          (b * w + (winBlock w x b).length) ρ := by
      intro d idx pos b i0 hi0 ρ
      rw [hset, hi0]
      refine win_fill (shuffle := shuffle) (w := w) h (b := b) (f := 0) ?_ w 0 (by omega) hw rfl
      unfold winFilled
      simp only [if_true, List.length_reverse, hs, Bool.false_or]
      exact .ret rfl
    rintro n i ρ d n' i' ρ' d' (⟨h1, h2, h3, rfl, (⟨h4, h5, h6⟩ | ⟨b, h4, h5, h6, h7⟩)⟩ | ⟨b, p, hp, rfl, rfl, hρ, rfl⟩ | ⟨b, hb, rfl, rfl, hρ, rfl⟩) -
    · obtain ⟨f, hf⟩ := key d' 0 0 0 (ρ 0) (h4.trans (Nat.zero_mul w).symm) (Function.update ρ' 0 (ρ 0))
      have hp : (winAnchor shuffle w).pub d = (0, 0) := by show (d.index, d.pos) = _; rw [h5, h6]
      rw [hp]
      refine ⟨f, _, _, _, _, hf, ?_⟩
      rw [h5] at h3
      have hi : i = 0 := by omega
      subst hi
      by_cases h0 : (winBlock w x 0).length = 0
      · refine Or.inr (Or.inr ⟨0, by omega, by omega, by omega, (update_zero ρ' (ρ 0)).trans (h4.trans (Nat.zero_mul w).symm), ?_⟩)
        have hnl : winBlock w x 0 = [] := List.length_eq_zero_iff.1 h0
        rw [if_pos h0, h0, decide_eq_true hw, hnl, hnil]
        rfl
      · refine Or.inr (Or.inl ⟨0, 0, by omega, by omega, by omega, (update_zero ρ' (ρ 0)).trans (h4.trans (Nat.zero_mul w).symm), ?_⟩)
        simp [winPerm]
    · obtain ⟨f, hf⟩ := key d' d.index d.pos b (ρ 0) h5 (Function.update ρ' 0 (ρ 0))
      refine ⟨f, _, _, _, _, hf, ?_⟩
      refine Or.inl ⟨?_, ?_, h3, ?_, Or.inr ⟨b, h4, (update_zero ρ' (ρ 0)).trans h5, h6, h7⟩⟩
      · show List.drop _ _ = []
        rw [List.drop_eq_nil_iff, List.length_reverse, hs]
        omega
      · show decide _ = false
        rw [decide_eq_false (by omega)]
      · rw [h3, h4, Nat.add_mul, Nat.one_mul, h7]
    · obtain ⟨f, hf⟩ := key d' b p b (ρ 0) hρ (Function.update ρ' 0 (ρ 0))
      refine ⟨f, _, _, _, _, hf, ?_⟩
      refine Or.inr (Or.inl ⟨b, p, hp, rfl, rfl, (update_zero ρ' (ρ 0)).trans hρ, ?_⟩)
      rw [Nat.min_eq_left (by omega)]
      rfl
    · obtain ⟨f, hf⟩ := key d' (if (winBlock w x b).length = 0 then b else b + 1) (winBlock w x b).length b (ρ 0) hρ (Function.update ρ' 0 (ρ 0))
      refine ⟨f, _, _, _, _, hf, ?_⟩
      refine Or.inr (Or.inr ⟨b, hb, rfl, rfl, (update_zero ρ' (ρ 0)).trans hρ, ?_⟩)
      have : ∀ i, List.drop (min (winBlock w x b).length (winBlock w x b).length) (shuffle i (winBlock w x b)).reverse = [] := by
        intro i
        rw [List.drop_eq_nil_iff, List.length_reverse, hs]
        omega
      rw [this, decide_eq_true hb]

theorem streamWindows_staysOver (hw : 0 < w) (hs : ∀ i l, (shuffle i l).length = l.length) (h : StaysOver x) :
    StaysOver (streamWindows shuffle w x) := by
  intro n hn
  have hlen : ∀ b, (winPerm shuffle w x b).length = (winBlock w x b).length := fun b => by simp [winPerm, hs]
  obtain ⟨b, p, hp, rfl⟩ : ∃ b p, p < w ∧ n = b * w + p :=
    ⟨n / w, n % w, Nat.mod_lt _ hw, by rw [Nat.mul_comm]; exact (Nat.div_add_mod n w).symm⟩
  rw [streamWindows_eq hp, List.getElem?_eq_none_iff, hlen] at hn
  by_cases hp' : p + 1 < w
  · rw [Nat.add_assoc, streamWindows_eq hp', List.getElem?_eq_none_iff, hlen]
    omega
  · have he : b * w + p + 1 = (b + 1) * w + 0 := by rw [Nat.add_mul]; omega
    rw [he, streamWindows_eq hw, List.getElem?_eq_none_iff, hlen]
    have hx := winBlock_short (w := w) h (b := b) (by omega)
    have h0 : x ((b + 1) * w + 0) = none := h.le hx (by rw [Nat.add_mul]; omega)
    have : winBlock w x (b + 1) = batchPrefix w x (b + 1) 0 := batchPrefix_over h h0 w (by omega)
    rw [this]
    exact Nat.le_refl _

end

end Grain
