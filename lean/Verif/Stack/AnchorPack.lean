import Verif.Stack.AnchorStreams
import Verif.Packing.Choose
/-
The streams of packing and flat_map over a parent with threads.
-/
namespace Grain

/-! ### flat_map -/

section
variable {f : α → List β} {x : Nat → Option α} {y : Nat → Option β} {first : Nat → Nat}

/-- Where a flat_map is after `n` elements: at the beginning, or in the list of element `k`. -/
def FmAt (f : α → List β) (x : Nat → Option α) (first : Nat → Nat) (n i : Nat) (ρ : Fin 1 → Nat) (d : FmLoc β) : Prop :=
  (n = 0 ∧ i = 0 ∧ ρ 0 = 0 ∧ d = { idx := 0, buf := [] }) ∨
  ∃ k a p, x k = some a ∧ p ≤ (f a).length ∧ n = first k + p ∧ i = k + 1 ∧ ρ 0 = k ∧ d = { idx := p, buf := f a }

theorem fm_head (h : Flattens f x y first) :
    ∀ r j a k, x j = some a → f a ≠ [] → j = k + r → ∀ (ρ : Fin 1 → Nat) (d : FmLoc β), d.buf[d.idx]? = none →
      ∃ m d' j' ρ', AnEval (flatMapAnchor f) x m (.head d) k ρ (y (first k)) d' j' ρ' ∧ (y (first k)).isSome ∧
        FmAt f x first (first k + 1) j' ρ' d' := by
  intro r
  induction r using Nat.strongRecOn with
  | ind r ih =>
    intro j a k hj ha hjk ρ d hd
    obtain ⟨a', h1, h2, h3⟩ := h.block k
    have hn : nextPos x k = k + 1 := by simp [nextPos, h1]
    have hact : (flatMapAnchor f).act (FmK.head d) = .mark 0 (FmK.read false d) := by
      show (match d.buf[d.idx]? with | some b => _ | none => _) = _
      rw [hd]
      rfl
    have hres : (flatMapAnchor f).resume (FmK.read false d) (x k) = FmK.head { idx := 0, buf := f a' } := by rw [h1]; rfl
    cases hf : f a' with
    | nil =>
      have hne : k ≠ j := by
        rintro rfl
        rw [h1] at hj
        cases hj
        exact ha hf
      have hfk : first (k + 1) = first k := by rw [h2, hf]; rfl
      obtain ⟨m, d', j', ρ', e1, e2, e3⟩ := ih (r - 1) (by omega) j a (k + 1) hj ha (by omega) (Function.update ρ 0 k)
        { idx := 0, buf := f a' } (by rw [hf]; rfl)
      rw [hfk] at e1 e2 e3
      refine ⟨m + 1 + 1, d', j', ρ', .mark hact (.next rfl ?_), e2, e3⟩
      rw [hres, hn]
      exact e1
    | cons b rest =>
      have hy : y (first k) = some b := by
        have := h3 0 (by rw [hf]; simp)
        rw [Nat.add_zero] at this
        rw [this, hf]
        rfl
      have hret : (flatMapAnchor f).act (FmK.head { idx := 0, buf := f a' }) = .ret (some b) { idx := 1, buf := f a' } := by
        show (match (f a')[0]? with | some b => _ | none => _) = _
        rw [hf]
        rfl
      refine ⟨0 + 1 + 1, { idx := 1, buf := f a' }, k + 1, Function.update ρ 0 k, .mark hact (.next rfl ?_), by simp [hy],
        Or.inr ⟨k, a', 1, h1, by rw [hf]; simp, rfl, rfl, update_zero ρ k, rfl⟩⟩
      rw [hres, hn, hy]
      exact .ret hret

theorem flatMapAnchor_computes (h : Flattens f x y first) : AnComputes (flatMapAnchor f) x y (FmAt f x first) := by
  have go : ∀ n i ρ (d : FmLoc β), d.buf[d.idx]? = none → n = first i →
      ∃ m d' j ρ', AnEval (flatMapAnchor f) x m (.head d) i ρ (y n) d' j ρ' ∧ FmAt f x first (nextPos y n) j ρ' d' := by
    rintro n i ρ d hd rfl
    obtain ⟨j, a, h1, h2, h3⟩ := h.more i
    obtain ⟨m, d', j', ρ', e1, e2, e3⟩ := fm_head h (j - i) j a i h2 h3 (by omega) ρ d hd
    obtain ⟨b, hb⟩ := Option.isSome_iff_exists.1 e2
    have hn : nextPos y (first i) = first i + 1 := by simp [nextPos, hb]
    exact ⟨m, d', j', ρ', e1, by rw [hn]; exact e3⟩
  constructor
  · exact Or.inl ⟨rfl, rfl, rfl, rfl⟩
  · rintro n i ρ d (⟨rfl, rfl, hρ, rfl⟩ | ⟨k, a, p, h1, h2, rfl, rfl, hρ, rfl⟩)
    · exact go 0 0 ρ _ rfl h.zero.symm
    · obtain ⟨a', h1', h3, h4⟩ := h.block k
      rw [h1] at h1'
      cases h1'
      by_cases hp : p < (f a).length
      · have hy : y (first k + p) = some ((f a)[p]) := by rw [h4 p hp, List.getElem?_eq_getElem hp]
        have hn : nextPos y (first k + p) = first k + (p + 1) := by simp [nextPos, hy]; omega
        refine ⟨0, { idx := p + 1, buf := f a }, k + 1, ρ, ?_, Or.inr ⟨k, a, p + 1, h1, by omega, hn, rfl, hρ, rfl⟩⟩
        refine .ret ?_
        show (match (f a)[p]? with | some b => _ | none => _) = _
        rw [hy, List.getElem?_eq_getElem hp]
        rfl
      · refine go _ _ ρ _ ?_ ?_
        · show (f a)[p]? = none
          rw [List.getElem?_eq_none_iff]
          omega
        · omega
  · have key : ∀ k a p i0 (d : FmLoc β) (ρ : Fin 1 → Nat), x k = some a → i0 = k →
        AnEval (flatMapAnchor f) x (0 + 1) ((flatMapAnchor f).onSet d p) i0 ρ none { idx := p, buf := f a } (k + 1) ρ := by
      rintro k a p i0 d ρ hx rfl
      have hn : nextPos x i0 = i0 + 1 := by simp [nextPos, hx]
      have hres : (flatMapAnchor f).resume (FmK.read true { d with idx := p }) (x i0) = FmK.out none { idx := p, buf := f a } := by
        rw [hx]; rfl
      refine .next rfl ?_
      show AnEval _ _ _ ((flatMapAnchor f).resume (FmK.read true { d with idx := p }) (x i0)) _ _ _ _ _ _
      rw [hres, hn]
      exact .ret rfl
    rintro n i ρ d n' i' ρ' d' (⟨rfl, rfl, hρ, rfl⟩ | ⟨k, a, p, h1, h2, rfl, rfl, hρ, rfl⟩) -
    · obtain ⟨a, h1, -, -⟩ := h.block 0
      exact ⟨_, _, _, _, _, key 0 a (0 : Nat) (ρ 0) d' (Function.update ρ' 0 (ρ 0)) h1 hρ,
        Or.inr ⟨0, a, 0, h1, by omega, by rw [h.zero], rfl, (update_zero ρ' (ρ 0)).trans hρ, rfl⟩⟩
    · exact ⟨_, _, _, _, _, key k a p (ρ 0) d' (Function.update ρ' 0 (ρ 0)) h1 hρ,
        Or.inr ⟨k, a, p, h1, h2, rfl, rfl, (update_zero ρ' (ρ 0)).trans hρ, rfl⟩⟩

theorem flattens_some (h : Flattens f x y first) : ∀ n, (y n).isSome := by
  have hmono : ∀ k, first k ≤ first (k + 1) := fun k => by obtain ⟨a, -, h2, -⟩ := h.block k; omega
  have hle : ∀ {k j}, k ≤ j → first k ≤ first j := fun h => monotone_nat_of_le_succ hmono h
  have hunb : ∀ n, ∃ k, n < first k := by
    intro n
    induction n with
    | zero =>
      obtain ⟨j, a, -, h2, h3⟩ := h.more 0
      obtain ⟨a', h1, h4, -⟩ := h.block j
      rw [h2] at h1
      cases h1
      have := List.length_pos_iff.2 h3
      exact ⟨j + 1, by omega⟩
    | succ n ih =>
      obtain ⟨k, hk⟩ := ih
      obtain ⟨j, a, h1, h2, h3⟩ := h.more k
      obtain ⟨a', h1', h4, -⟩ := h.block j
      rw [h2] at h1'
      cases h1'
      have := List.length_pos_iff.2 h3
      have := hle h1
      exact ⟨j + 1, by omega⟩
  intro n
  classical
  obtain ⟨k, hk⟩ := hunb n
  have : ∀ k, n < first k → (y n).isSome := by
    intro k
    induction k with
    | zero => intro h0; rw [h.zero] at h0; omega
    | succ k ih =>
      intro hk
      by_cases hlt : n < first k
      · exact ih hlt
      · obtain ⟨a, -, h2, h3⟩ := h.block k
        have := h3 (n - first k) (by omega)
        rw [Nat.add_sub_cancel' (by omega)] at this
        rw [this, List.getElem?_eq_getElem (by omega)]
        rfl
  exact this k hk

theorem flattens_staysOver (h : Flattens f x y first) : StaysOver y := by
  intro n hn
  have := flattens_some h n
  rw [hn] at this
  cases this

end

/-! ### Packing -/

/-- `y` consists of the rows of the batches that a packer makes of the stream `x`: batch `k` is made of the elements from
`cut k` to `cut (k + 1)`, its first row is row `first k` of `y`.  A batch is closed when an element does not fit any more,
which then begins the next batch, or at the end; `order` says in which order its rows are read.  After the last batch `y` is
over. -/
structure Packs (pk : Packer E R) (order : Nat → List R → List Nat) (x : Nat → Option E) (y : Nat → Option R)
    (cut first : Nat → Nat) : Prop where
  cutZero : cut 0 = 0
  firstZero : first 0 = 0
  batch : ∀ k, (x (cut k) = none ∧ ∀ m, first k ≤ m → y m = none) ∨
    ∃ es b, es ≠ [] ∧ cut (k + 1) = cut k + es.length ∧ (∀ i, i < es.length → x (cut k + i) = es[i]?) ∧
      addAll pk pk.new es = some b ∧ (∀ e, x (cut (k + 1)) = some e → pk.tryAdd b e = .ok none) ∧
      pk.finish b ≠ [] ∧ first (k + 1) = first k + (pk.finish b).length ∧
      ∀ p, p < (pk.finish b).length → y (first k + p) = (emitBatch order (first k) (pk.finish b))[p]?

section
variable {E R : Type} {pk : Packer E R} {order : Nat → List R → List Nat} {x : Nat → Option E} {y : Nat → Option R}
  {cut first : Nat → Nat}

/-- What the iterator has read of batch `k` between two calls: nothing, or the first element, which did not fit into the
batch before. -/
def PkPre (pk : Packer E R) (x : Nat → Option E) (cut : Nat → Nat) (k i : Nat) (cur : Option pk.B) : Prop :=
  (cur = none ∧ i = cut k) ∨ ∃ e b, x (cut k) = some e ∧ pk.tryAdd pk.new e = .ok (some b) ∧ cur = some b ∧ i = cut k + 1

/-- Row `p` of batch `k` is next. -/
def PkNext (pk : Packer E R) (order : Nat → List R → List Nat) (x : Nat → Option E) (cut first : Nat → Nat) (k p : Nat) : Prop :=
  (x (cut k) = none ∧ p = 0) ∨ (x (cut k) ≠ none ∧ ∃ rows, first (k + 1) = first k + rows ∧ p < rows)

/-- Where packing is after `n` rows. -/
def PkAt (pk : Packer E R) (order : Nat → List R → List Nat) (x : Nat → Option E) (y : Nat → Option R) (cut first : Nat → Nat) (n i : Nat)
    (ρ : Fin 3 → Nat) (d : PkLoc pk) : Prop :=
  ∃ k p, n = first k + p ∧ ρ 0 = cut k ∧ d.nextRow = p ∧ d.counter = n ∧ PkNext pk order x cut first k p ∧
    ((d.packed = none ∧ PkPre pk x cut k i d.current) ∨
     (∃ es b, cut (k + 1) = cut k + es.length ∧ (∀ j, j < es.length → x (cut k + j) = es[j]?) ∧ addAll pk pk.new es = some b ∧
        (∀ p, p < (pk.finish b).length → y (first k + p) = (emitBatch order (first k) (pk.finish b))[p]?) ∧
        first (k + 1) = first k + (pk.finish b).length ∧ p < (pk.finish b).length ∧ x (cut k) ≠ none ∧
        d.packed = some (pk.finish b, order (first k) (pk.finish b)) ∧ ρ 1 = cut (k + 1) ∧
        PkPre pk x cut (k + 1) i d.current))

theorem packs_next (h : Packs pk order x y cut first) (k : Nat) : PkNext pk order x cut first k 0 := by
  rcases h.batch k with ⟨h1, -⟩ | ⟨es, b, h1, h2, h3, h4, h5, h6, h7, h8⟩
  · exact Or.inl ⟨h1, rfl⟩
  · refine Or.inr ⟨?_, _, h7, List.length_pos_iff.2 h6⟩
    have h0 := List.length_pos_iff.2 h1
    have := h3 0 h0
    rw [Nat.add_zero] at this
    rw [this, List.getElem?_eq_getElem h0]
    simp

/-- A row is emitted. -/
theorem pk_emit (hord : IsOrder order) (h : Packs pk order x y cut first) {k p i : Nat} {es : List E} {b : pk.B}
    (h1 : cut (k + 1) = cut k + es.length) (h2 : ∀ j, j < es.length → x (cut k + j) = es[j]?) (h3 : addAll pk pk.new es = some b)
    (hy : ∀ p, p < (pk.finish b).length → y (first k + p) = (emitBatch order (first k) (pk.finish b))[p]?)
    (hf : first (k + 1) = first k + (pk.finish b).length) (hp : p < (pk.finish b).length) (hx : x (cut k) ≠ none)
    {ρ : Fin 3 → Nat} (h0 : ρ 0 = cut k) (hr : ρ 1 = cut (k + 1)) {d : PkLoc pk} (hn : d.nextRow = p) (hc : d.counter = first k + p)
    (hd : d.packed = some (pk.finish b, order (first k) (pk.finish b))) (hpre : PkPre pk x cut (k + 1) i d.current) :
    ∃ f d' ρ', AnEval (packAnchor pk order) x f (pkEmit d (pk.finish b) (order (first k) (pk.finish b))) i ρ (y (first k + p)) d' i ρ' ∧
      PkAt pk order x y cut first (nextPos y (first k + p)) i ρ' d' := by
  obtain ⟨-, -, e3⟩ := emitBatch_spec hord (first k) (pk.finish b)
  obtain ⟨i', row, e4, e5, e6⟩ := e3 p hp
  have hyp : y (first k + p) = some row := by rw [hy p hp, e6]
  have hnp : nextPos y (first k + p) = first k + (p + 1) := by simp [nextPos, hyp]; omega
  rw [hnp, hyp]
  unfold pkEmit
  rw [hn, e4, Option.bind_some, e5]
  dsimp only
  split
  · rename_i hlast
    refine ⟨0 + 1, { d with packed := none, nextRow := 0, counter := d.counter + 1 }, Function.update ρ 0 (ρ 1), .copy rfl (.ret rfl), ?_⟩
    refine ⟨k + 1, 0, by omega, ?_, rfl, by show d.counter + 1 = _; omega, packs_next h _, Or.inl ⟨rfl, hpre⟩⟩
    exact (Function.update_self 0 (ρ 1) ρ).trans hr
  · rename_i hlast
    refine ⟨0, { d with nextRow := p + 1, counter := d.counter + 1 }, ρ, .ret rfl, ?_⟩
    exact ⟨k, p + 1, rfl, h0, rfl, by show d.counter + 1 = _; omega, Or.inr ⟨hx, _, hf, by omega⟩,
      Or.inr ⟨es, b, h1, h2, h3, hy, hf, by omega, hx, hd, hr, hpre⟩⟩

/-- The rest of the batch is read, and its row `p` is emitted. -/
theorem pk_fill (hord : IsOrder order) (h : Packs pk order x y cut first) {k p : Nat} {es : List E} {b : pk.B}
    (h1 : cut (k + 1) = cut k + es.length) (h2 : ∀ j, j < es.length → x (cut k + j) = es[j]?) (h3 : addAll pk pk.new es = some b)
    (hne : es ≠ []) (hover : ∀ e, x (cut (k + 1)) = some e → pk.tryAdd b e = .ok none)
    (hy : ∀ p, p < (pk.finish b).length → y (first k + p) = (emitBatch order (first k) (pk.finish b))[p]?)
    (hf : first (k + 1) = first k + (pk.finish b).length) (hp : p < (pk.finish b).length) (hx : x (cut k) ≠ none) :
    ∀ r q (ρ : Fin 3 → Nat) (d : PkLoc pk), q + r = es.length → ρ 0 = cut k → d.nextRow = p → d.counter = first k + p →
      d.packed = none → ((q = 0 ∧ d.current = none) ∨ ∃ b', 0 < q ∧ d.current = some b' ∧ addAll pk pk.new (es.take q) = some b') →
      ∃ f d' i ρ', AnEval (packAnchor pk order) x f (.head d) (cut k + q) ρ (y (first k + p)) d' i ρ' ∧
        PkAt pk order x y cut first (nextPos y (first k + p)) i ρ' d' := by
  intro r
  induction r with
  | zero =>
    intro q ρ d hq h0 hn hc hd hcur
    have hql : q = es.length := by omega
    subst hql
    have hpos := List.length_pos_iff.2 hne
    obtain ⟨b', hb', hcur⟩ : ∃ b', d.current = some b' ∧ addAll pk pk.new (es.take es.length) = some b' := by
      rcases hcur with ⟨h0, -⟩ | ⟨b', -, h4, h5⟩
      · omega
      · exact ⟨b', h4, h5⟩
    rw [List.take_length, h3] at hcur
    cases hcur
    rw [← h1]
    have hρ0 : Function.update (Function.update ρ 2 (cut (k + 1))) 1 (Function.update ρ 2 (cut (k + 1)) 2) 0 = cut k := by
      rw [Function.update_of_ne (by decide), Function.update_of_ne (by decide)]; exact h0
    have hρ1 : Function.update (Function.update ρ 2 (cut (k + 1))) 1 (Function.update ρ 2 (cut (k + 1)) 2) 1 = cut (k + 1) := by
      rw [Function.update_self, Function.update_self]
    have hcn : d.counter - d.nextRow = first k := by omega
    cases hxc : x (cut (k + 1)) with
    | none =>
      have hnp : nextPos x (cut (k + 1)) = cut (k + 1) := by simp [nextPos, hxc]
      obtain ⟨f, d', ρ', e1, e2⟩ := pk_emit (i := cut (k + 1)) hord h h1 h2 h3 hy hf hp hx hρ0 hρ1
        (d := { d with packed := some (pk.finish b, order (first k) (pk.finish b)), current := none }) hn hc rfl
        (Or.inl ⟨rfl, rfl⟩)
      refine ⟨f + 1 + 1 + 1, d', _, ρ', .mark rfl (.next rfl ?_), e2⟩
      have hres : (packAnchor pk order).resume (PkK.read d) (x (cut (k + 1))) =
          PkK.final { d with packed := some (pk.finish b, order (first k) (pk.finish b)), current := none } (pk.finish b)
            (order (first k) (pk.finish b)) := by
        rw [hxc]
        show pkRead order d none = _
        unfold pkRead
        rw [hb']
        unfold pkFinal
        rw [hcn]
      rw [hres, hnp]
      exact .copy rfl e1
    | some e =>
      have hnp : nextPos x (cut (k + 1)) = cut (k + 1) + 1 := by simp [nextPos, hxc]
      obtain ⟨b1, hb1⟩ : ∃ b1, pk.tryAdd pk.new e = .ok (some b1) := by
        rcases h.batch (k + 1) with ⟨g1, -⟩ | ⟨es', b2, g1, g2, g3, g4, -⟩
        · rw [hxc] at g1; cases g1
        · cases es' with
          | nil => exact absurd rfl g1
          | cons e' es' =>
            have := g3 0 (by simp)
            rw [Nat.add_zero, hxc] at this
            simp only [List.getElem?_cons_zero, Option.some.injEq] at this
            subst this
            unfold addAll at g4
            split at g4
            · rename_i b' hb'
              exact ⟨b', hb'⟩
            · cases g4
      obtain ⟨f, d', ρ', e1, e2⟩ := pk_emit (i := cut (k + 1) + 1) hord h h1 h2 h3 hy hf hp hx hρ0 hρ1
        (d := { d with packed := some (pk.finish b, order (first k) (pk.finish b)), current := some b1 }) hn hc rfl
        (Or.inr ⟨e, b1, hxc, hb1, rfl, rfl⟩)
      refine ⟨f + 1 + 1 + 1, d', _, ρ', .mark rfl (.next rfl ?_), e2⟩
      have hres : (packAnchor pk order).resume (PkK.read d) (x (cut (k + 1))) =
          PkK.final { d with packed := some (pk.finish b, order (first k) (pk.finish b)), current := some b1 } (pk.finish b)
            (order (first k) (pk.finish b)) := by
        rw [hxc]
        show pkRead order d (some e) = _
        unfold pkRead
        dsimp only
        rw [hb', Option.getD_some, hover e hxc]
        dsimp only
        rw [hb1]
        dsimp only
        unfold pkFinal
        rw [hcn]
      rw [hres, hnp]
      exact .copy rfl e1
  | succ r ih =>
    intro q ρ d hq h0 hn hc hd hcur
    have hql : q < es.length := by omega
    have hxq : x (cut k + q) = some es[q] := by rw [h2 q hql, List.getElem?_eq_getElem hql]
    have hnp : nextPos x (cut k + q) = cut k + (q + 1) := by simp [nextPos, hxq]; omega
    obtain ⟨b', hb'⟩ : ∃ b', addAll pk pk.new (es.take (q + 1)) = some b' := by
      have := addAll_append pk (es.take (q + 1)) (es.drop (q + 1)) pk.new
      rw [List.take_append_drop, h3] at this
      cases hb : addAll pk pk.new (es.take (q + 1)) with
      | none => rw [hb] at this; cases this
      | some b' => exact ⟨b', rfl⟩
    have hcur' : addAll pk pk.new (es.take q) = some (d.current.getD pk.new) := by
      rcases hcur with ⟨rfl, h4⟩ | ⟨b'', -, h4, h5⟩
      · rw [h4]; rfl
      · rw [h4, h5]; rfl
    have hadd : pk.tryAdd (d.current.getD pk.new) es[q] = .ok (some b') := by
      rw [List.take_add_one, addAll_append, hcur', List.getElem?_eq_getElem hql] at hb'
      simp only [Option.toList_some, Option.bind_some, addAll] at hb'
      split at hb'
      · rename_i b'' hb''
        cases hb'
        exact hb''
      · cases hb'
    obtain ⟨f, d', i, ρ', e1, e2⟩ := ih (q + 1) (Function.update ρ 2 (cut k + q)) { d with current := some b' } (by omega)
      (by rw [Function.update_of_ne (by decide)]; exact h0) hn hc hd (Or.inr ⟨b', by omega, rfl, hb'⟩)
    refine ⟨f + 1 + 1, d', i, ρ', .mark rfl (.next rfl ?_), e2⟩
    have hres : (packAnchor pk order).resume (PkK.read d) (x (cut k + q)) = PkK.head { d with current := some b' } := by
      rw [hxq]
      show pkRead order d (some es[q]) = _
      unfold pkRead
      dsimp only
      rw [hadd]
    rw [hres, hnp]
    exact e1

theorem packAnchor_computes (hord : IsOrder order) (h : Packs pk order x y cut first) :
    AnComputes (packAnchor pk order) x y (PkAt pk order x y cut first) := by
  constructor
  · exact ⟨0, 0, by rw [h.firstZero], h.cutZero.symm, rfl, rfl, packs_next h 0, Or.inl ⟨rfl, Or.inl ⟨rfl, h.cutZero.symm⟩⟩⟩
  · rintro n i ρ d ⟨k, p, rfl, h0, hn, hc, hnext, (⟨hd, hpre⟩ | ⟨es, b, g1, g2, g3, hy, hf, hp, hx, hd, hr, hpre⟩)⟩
    · have hst : (packAnchor pk order).start d = PkK.head d := by
        show (match d.packed with | some (rows, ord) => _ | none => _) = _
        rw [hd]
      rw [hst]
      rcases hnext with ⟨hx, rfl⟩ | ⟨hx, rows, hrows, hp⟩
      · obtain ⟨hcur, rfl⟩ : d.current = none ∧ i = cut k := by
          rcases hpre with h1 | ⟨e, b, h1, -⟩
          · exact h1
          · rw [hx] at h1; cases h1
        have hy : y (first k + 0) = none := by
          rcases h.batch k with ⟨-, h1⟩ | ⟨es, b, h1, h2, h3, -⟩
          · exact h1 _ (by omega)
          · exfalso
            have hpos := List.length_pos_iff.2 h1
            have := h3 0 hpos
            rw [Nat.add_zero, hx, List.getElem?_eq_getElem hpos] at this
            cases this
        have hnp : nextPos y (first k + 0) = first k + 0 := by simp only [nextPos, hy]
        have hnx : nextPos x (cut k) = cut k := by simp [nextPos, hx]
        refine ⟨0 + 1 + 1, d, cut k, Function.update ρ 2 (cut k), .mark rfl (.next rfl ?_), ?_⟩
        · have hres : (packAnchor pk order).resume (PkK.read d) (x (cut k)) = PkK.out none d := by
            rw [hx]
            show pkRead order d none = _
            unfold pkRead
            rw [hcur]
          rw [hres, hnx, hy]
          exact .ret rfl
        · rw [hnp]
          refine ⟨k, 0, rfl, ?_, hn, hc, Or.inl ⟨hx, rfl⟩, Or.inl ⟨hd, hpre⟩⟩
          have : Function.update ρ 2 (cut k) 0 = ρ 0 := Function.update_of_ne (show (0 : Fin 3) ≠ 2 by decide) _ _
          rw [← h0]
          exact this
      · rcases h.batch k with ⟨h1, -⟩ | ⟨es, b, h1, h2, h3, h4, h5, h6, h7, h8⟩
        · exact absurd h1 hx
        · have hp' : p < (pk.finish b).length := by omega
          rcases hpre with ⟨hcur, rfl⟩ | ⟨e, b1, g1, g2, g3, rfl⟩
          · exact pk_fill hord h h2 h3 h4 h1 h5 h8 h7 hp' hx es.length 0 ρ d (by omega) h0 hn hc hd (Or.inl ⟨rfl, hcur⟩)
          · have hpos := List.length_pos_iff.2 h1
            refine pk_fill hord h h2 h3 h4 h1 h5 h8 h7 hp' hx (es.length - 1) 1 ρ d (by omega) h0 hn hc hd
              (Or.inr ⟨b1, by omega, g3, ?_⟩)
            have := h3 0 hpos
            rw [Nat.add_zero, g1] at this
            cases es with
            | nil => cases this
            | cons e' es =>
              simp only [List.getElem?_cons_zero, Option.some.injEq] at this
              subst this
              simp only [List.take_succ_cons, List.take_zero, addAll, g2]
    · have hst : (packAnchor pk order).start d = pkEmit d (pk.finish b) (order (first k) (pk.finish b)) := by
        show (match d.packed with | some (rows, ord) => _ | none => _) = _
        rw [hd]
      rw [hst]
      obtain ⟨f, d', ρ', e1, e2⟩ := pk_emit hord h g1 g2 g3 hy hf hp hx h0 hr hn hc hd hpre
      exact ⟨f, d', _, ρ', e1, e2⟩
  · rintro n i ρ d n' i' ρ' d' ⟨k, p, rfl, h0, hn, hc, hnext, -⟩ -
    refine ⟨0 + 1, none, { current := none, packed := none, nextRow := p, counter := first k + p }, cut k,
      Function.update (Function.update ρ' 0 (ρ 0)) 0 (ρ 0), ?_, ?_⟩
    · have hpub : (packAnchor pk order).pub d = (p, first k + p) := by
        show (d.nextRow, d.counter) = _
        rw [hn, hc]
      rw [hpub, ← h0]
      exact .mark rfl (.ret rfl)
    · refine ⟨k, p, rfl, ?_, rfl, rfl, hnext, Or.inl ⟨rfl, Or.inl ⟨rfl, rfl⟩⟩⟩
      rw [← h0]
      exact Function.update_self ..

theorem packs_over (hord : IsOrder order) (h : Packs pk order x y cut first) {n : Nat} (hn : y n = none) :
    ∃ k, x (cut k) = none ∧ first k ≤ n ∧ ∀ m, first k ≤ m → y m = none := by
  have key : ∀ k, (∃ k, x (cut k) = none ∧ first k ≤ n ∧ ∀ m, first k ≤ m → y m = none) ∨ (first k ≤ n ∧ k ≤ first k) := by
    intro k
    induction k with
    | zero => right; rw [h.firstZero]; omega
    | succ k ih =>
      rcases ih with h1 | ⟨h1, h2⟩
      · exact Or.inl h1
      · rcases h.batch k with ⟨g1, g2⟩ | ⟨es, b, g1, g2, g3, g4, g5, g6, g7, g8⟩
        · exact Or.inl ⟨k, g1, h1, g2⟩
        · right
          have hpos := List.length_pos_iff.2 g6
          by_cases hlt : n < first (k + 1)
          · exfalso
            have := g8 (n - first k) (by omega)
            rw [Nat.add_sub_cancel' h1, hn] at this
            obtain ⟨e1, -, -⟩ := emitBatch_spec hord (first k) (pk.finish b)
            rw [List.getElem?_eq_getElem (by omega)] at this
            cases this
          · omega
  rcases key (n + 1) with h1 | ⟨h1, h2⟩
  · exact h1
  · omega

theorem packs_staysOver (hord : IsOrder order) (h : Packs pk order x y cut first) : StaysOver y := by
  intro n hn
  obtain ⟨k, -, h2, h3⟩ := packs_over hord h hn
  exact h3 _ (by omega)

/-- A list cut into batches as long as possible. -/
theorem packs_of_groups (hord : IsOrder order) {gs : List (List E)} (h : Groups pk true gs []) :
    Packs pk order (fun n => gs.flatten[n]?) (fun n => (packStream pk order 0 gs)[n]?)
      (fun k => (gs.take k).flatten.length) (fun k => (packStream pk order 0 (gs.take k)).length) := by
  refine ⟨rfl, rfl, fun k => ?_⟩
  by_cases hk : k < gs.length
  · right
    have hsplit : gs = gs.take k ++ gs[k] :: gs.drop (k + 1) := by simp
    have hg := h
    rw [hsplit] at hg
    obtain ⟨h1, ⟨b, h2, h3, h4⟩, h5⟩ := hg.drop
    rw [List.append_nil] at h4
    have htake : gs.take (k + 1) = gs.take k ++ [gs[k]] := by
      rw [List.take_add_one, List.getElem?_eq_getElem hk]; rfl
    have hrows : rowsOf pk gs[k] = pk.finish b := by simp only [rowsOf, h2]
    have hflat : gs.flatten = (gs.take k).flatten ++ (gs[k] ++ (gs.drop (k + 1)).flatten) := by
      conv_lhs => rw [hsplit]
      rw [List.flatten_append, List.flatten_cons]
    have hps : packStream pk order 0 gs = packStream pk order 0 (gs.take k) ++
        (emitBatch order (packStream pk order 0 (gs.take k)).length (pk.finish b) ++
          packStream pk order ((packStream pk order 0 (gs.take k)).length + (pk.finish b).length) (gs.drop (k + 1))) := by
      conv_lhs => rw [hsplit]
      rw [packStream_append pk hord, Nat.zero_add]
      simp only [packStream, hrows]
    have hlen := (emitBatch_spec hord (packStream pk order 0 (gs.take k)).length (pk.finish b)).1
    refine ⟨gs[k], b, h1, ?_, ?_, h2, ?_, h3, ?_, ?_⟩
    · rw [htake, List.flatten_append, List.length_append, List.flatten_singleton]
    · intro i hi
      rw [hflat, List.getElem?_append_right (by omega), Nat.add_sub_cancel_left, List.getElem?_append_left hi]
    · intro e he
      rw [htake, List.flatten_append, List.length_append] at he
      simp only [List.flatten_cons, List.flatten_nil, List.append_nil] at he
      rw [hflat, List.getElem?_append_right (by omega), Nat.add_sub_cancel_left, List.getElem?_append_right (by omega),
        Nat.sub_self] at he
      cases hd : (gs.drop (k + 1)).flatten with
      | nil => rw [hd] at he; cases he
      | cons e' t =>
        rw [hd] at he h4
        simp only [List.getElem?_cons_zero, Option.some.injEq] at he
        subst he
        exact h4.1
    · rw [htake, packStream_append pk hord, Nat.zero_add]
      simp only [packStream, hrows, List.append_nil, List.length_append]
      rw [hlen]
    · intro p hp
      rw [hps, List.getElem?_append_right (by omega), Nat.add_sub_cancel_left, List.getElem?_append_left (by omega)]
  · left
    rw [List.take_of_length_le (by omega)]
    exact ⟨List.getElem?_eq_none (le_refl _), fun m hm => List.getElem?_eq_none hm⟩

end

end Grain
