import Verif.Stack.AnchorStreams
/-
The streams of repeat and rebatch over a parent with threads.
-/
namespace Grain

/-! ### Repeat -/

section
variable {epochs : Option Nat} {len : Nat} {x : Nat → Option α}

/-- Where a repeat is after `n` elements of a parent of `len` elements: in epoch `e`, or at the end. -/
def RpAt (epochs : Option Nat) (len : Nat) (n i : Nat) (ρ : Fin 2 → Nat) (e : Nat) : Prop :=
  ρ 1 = 0 ∧ i ≤ len ∧ n = (if epochs = some e then e * len else e * len + i) ∧ ∀ N, epochs = some N → e ≤ N

theorem rpAt_end {e i : Nat} {ρ : Fin 2 → Nat} (hρ : ρ 1 = 0) (hi : i ≤ len) (he : epochs = some e) : RpAt epochs len (e * len) i ρ e :=
  ⟨hρ, hi, by rw [if_pos he], fun N hN => by rw [he] at hN; cases hN; exact le_rfl⟩

theorem rpAt_mid {e i : Nat} {ρ : Fin 2 → Nat} (hρ : ρ 1 = 0) (hi : i ≤ len) (he : ∀ N, epochs = some N → e < N) :
    RpAt epochs len (e * len + i) i ρ e :=
  ⟨hρ, hi, by rw [if_neg (fun h => absurd (he e h) (by omega))], fun N hN => le_of_lt (he N hN)⟩

theorem streamRepeat_eq {e i : Nat} (hi : i < len) (he : ∀ N, epochs = some N → e < N) :
    streamRepeat epochs len x (e * len + i) = x i := by
  have hm : (e * len + i) % len = i := by rw [Nat.mul_comm, Nat.mul_add_mod, Nat.mod_eq_of_lt hi]
  unfold streamRepeat
  cases epochs with
  | none => exact congrArg x hm
  | some N =>
    have h1 := he N rfl
    have h2 : (e + 1) * len ≤ N * len := Nat.mul_le_mul_right _ h1
    rw [Nat.add_mul] at h2
    show (if _ then _ else _) = _
    rw [if_pos (by omega), hm]

theorem rp_read (hx : ∀ n, (x n).isSome ↔ n < len) {e i : Nat} {ρ : Fin 2 → Nat} (hρ : ρ 1 = 0) (hi : i < len)
    (he : ∀ N, epochs = some N → e < N) :
    ∃ f e' j ρ', AnEval (repeatAnchor epochs) x f (RpK.read e) i ρ (streamRepeat epochs len x (e * len + i)) e' j ρ' ∧
      RpAt epochs len (nextPos (streamRepeat epochs len x) (e * len + i)) j ρ' e' := by
  obtain ⟨a, ha⟩ := Option.isSome_iff_exists.1 ((hx i).2 hi)
  have hy := streamRepeat_eq (x := x) hi he
  have hn : nextPos x i = i + 1 := by simp [nextPos, ha]
  have hres : (repeatAnchor epochs).resume (RpK.read e) (x i) = RpK.out (some a) e := by rw [ha]; rfl
  have hny : nextPos (streamRepeat epochs len x) (e * len + i) = e * len + i + 1 := by simp [nextPos, hy, ha]
  refine ⟨0 + 1, e, i + 1, ρ, .next rfl ?_, ?_⟩
  · rw [hres, hn, hy, ha]
    exact .ret rfl
  · rw [hny]
    exact rpAt_mid hρ (by omega) he

/-- At the end of an epoch. -/
theorem rp_turn (hx : ∀ n, (x n).isSome ↔ n < len) (h0 : len = 0 → epochs ≠ none) :
    ∀ (m e : Nat) (ρ : Fin 2 → Nat), ρ 1 = 0 → (∀ N, epochs = some N → e < N ∧ N - e ≤ m) → (epochs = none → 0 < m) →
    ∃ f e' j ρ', AnEval (repeatAnchor epochs) x f (RpK.read e) len ρ (streamRepeat epochs len x (e * len + len)) e' j ρ' ∧
      RpAt epochs len (nextPos (streamRepeat epochs len x) (e * len + len)) j ρ' e' := by
  intro m
  induction m with
  | zero =>
    intro e ρ hρ he hn
    cases hep : epochs with
    | none => exact absurd (hn hep) (by omega)
    | some N =>
      have := he N hep
      omega
  | succ m ih =>
    intro e ρ hρ he hn
    have hnone : x len = none := by
      have := (hx len).not.2 (by omega)
      simpa using this
    have hp : nextPos x len = len := by simp [nextPos, hnone]
    by_cases hlast : epochs = some (e + 1)
    · have hy : streamRepeat epochs len x (e * len + len) = none := by
        unfold streamRepeat
        rw [hlast]
        show (if _ then _ else _) = _
        rw [if_neg]
        rw [Nat.add_mul]
        omega
      have hny : nextPos (streamRepeat epochs len x) (e * len + len) = e * len + len := by simp [nextPos, hy]
      have hres : (repeatAnchor epochs).resume (RpK.read e) (x len) = RpK.out none (e + 1) := by
        rw [hnone]
        exact if_pos hlast
      refine ⟨0 + 1, e + 1, len, ρ, .next rfl ?_, ?_⟩
      · rw [hres, hp, hy]
        exact .ret rfl
      · rw [hny, show e * len + len = (e + 1) * len by rw [Nat.add_mul]; omega]
        exact rpAt_end hρ le_rfl hlast
    · have hres : (repeatAnchor epochs).resume (RpK.read e) (x len) = RpK.again (e + 1) := by
        rw [hnone]
        exact if_neg hlast
      have he' : ∀ N, epochs = some N → e + 1 < N := by
        intro N hN
        have := (he N hN).1
        rcases Nat.lt_or_ge (e + 1) N with h | h
        · exact h
        · exact absurd (by rw [hN]; congr 1; omega) hlast
      have hpos : e * len + len = (e + 1) * len + 0 := by rw [Nat.add_mul]; omega
      have key : ∃ f e' j ρ', AnEval (repeatAnchor epochs) x f (RpK.read (e + 1)) 0 ρ (streamRepeat epochs len x (e * len + len)) e' j ρ' ∧
          RpAt epochs len (nextPos (streamRepeat epochs len x) (e * len + len)) j ρ' e' := by
        rw [hpos]
        rcases Nat.eq_zero_or_pos len with hl | hl
        · have := ih (e + 1) ρ hρ (fun N hN => ⟨he' N hN, by have := (he N hN).2; omega⟩) (fun h => absurd h (h0 hl))
          subst hl
          exact this
        · exact rp_read hx hρ hl he'
      obtain ⟨f, e', j, ρ', h1, h2⟩ := key
      refine ⟨f + 1 + 1, e', j, ρ', .next rfl ?_, h2⟩
      rw [hres, hp]
      refine .back (m := (1 : Fin 2)) rfl ?_
      show AnEval _ _ _ _ (ρ 1) _ _ _ _ _
      rw [hρ]
      exact h1

theorem repeatAnchor_computes (hx : ∀ n, (x n).isSome ↔ n < len) (h0 : len = 0 → epochs ≠ none) (h1 : epochs ≠ some 0) :
    AnComputes (repeatAnchor epochs) x (streamRepeat epochs len x) (RpAt epochs len) := by
  have main : ∀ (n i : Nat) (ρ : Fin 2 → Nat) (e : Nat), RpAt epochs len n i ρ e →
      ∃ (f e' j : Nat) (ρ' : Fin 2 → Nat), AnEval (repeatAnchor epochs) x f ((repeatAnchor epochs).start e) i ρ (streamRepeat epochs len x n) e' j ρ' ∧
        RpAt epochs len (nextPos (streamRepeat epochs len x) n) j ρ' e' := by
    rintro n i ρ e ⟨hρ, hi, hn, he⟩
    by_cases hend : epochs = some e
    · rw [if_pos hend] at hn
      subst hn
      have hy : streamRepeat epochs len x (e * len) = none := by
        rw [hend]
        exact if_neg (by omega)
      have hs : (repeatAnchor epochs).start e = RpK.out (none : Option α) e := if_pos hend
      have hny : nextPos (streamRepeat epochs len x) (e * len) = e * len := by simp [nextPos, hy]
      refine ⟨0, e, i, ρ, ?_, ?_⟩
      · rw [hs, hy]
        exact .ret rfl
      · rw [hny]
        exact rpAt_end hρ hi hend
    · rw [if_neg hend] at hn
      subst hn
      have hs : (repeatAnchor epochs).start e = (RpK.read e : RpK α) := if_neg hend
      have he' : ∀ N, epochs = some N → e < N := by
        intro N hN
        have := he N hN
        rcases Nat.lt_or_ge e N with h | h
        · exact h
        · exact absurd (by rw [hN]; congr 1; omega) hend
      rw [hs]
      rcases Nat.lt_or_ge i len with hlt | hge
      · exact rp_read hx hρ hlt he'
      · have : i = len := by omega
        subst this
        cases hep : epochs with
        | none =>
          rw [← hep]
          exact rp_turn hx h0 1 e ρ hρ (fun N hN => by rw [hep] at hN; cases hN) (fun _ => by omega)
        | some N =>
          rw [← hep]
          exact rp_turn hx h0 (N - e) e ρ hρ (fun M hM => by rw [hep] at hM; cases hM; exact ⟨he' N hep, by omega⟩)
            (fun h => by rw [hep] at h; cases h)
  constructor
  · have := rpAt_mid (epochs := epochs) (len := len) (e := 0) (i := 0) (ρ := fun _ => 0) rfl (by omega)
      (fun N hN => Nat.pos_of_ne_zero fun h => h1 (by rw [hN, h]))
    rw [Nat.zero_mul, Nat.zero_add] at this
    exact this
  · intro n i ρ e h
    exact main n i ρ e h
  · rintro n i ρ e n' i' ρ' e' ⟨hρ, hi, hn, he⟩ ⟨hρ', -, -, -⟩
    refine ⟨0, none, e, i, Function.update ρ' 0 i, .ret rfl, ?_, hi, hn, he⟩
    exact (Function.update_of_ne (by decide : (1 : Fin 2) ≠ 0) i ρ').trans hρ'

/-- A parent that never ends. -/
theorem repeatAnchor_endless (hx : ∀ n, (x n).isSome) (h1 : epochs ≠ some 0) :
    AnComputes (repeatAnchor epochs) x x (fun n i _ e => n = i ∧ e = (0 : Nat)) := by
  constructor
  · exact ⟨rfl, rfl⟩
  · rintro n i ρ e ⟨rfl, rfl⟩
    obtain ⟨a, ha⟩ := Option.isSome_iff_exists.1 (hx n)
    have hn : nextPos x n = n + 1 := by simp [nextPos, ha]
    have hs : (repeatAnchor epochs).start (0 : Nat) = (RpK.read 0 : RpK α) := if_neg h1
    have hres : (repeatAnchor epochs).resume (RpK.read 0) (x n) = RpK.out (some a) 0 := by rw [ha]; rfl
    refine ⟨0 + 1, (0 : Nat), n + 1, ρ, ?_, hn, rfl⟩
    rw [hs]
    refine .next rfl ?_
    rw [hres, hn, ha]
    exact .ret rfl
  · rintro n i ρ e n' i' ρ' e' ⟨rfl, rfl⟩ -
    exact ⟨0, none, (0 : Nat), n, Function.update ρ' 0 n, .ret rfl, rfl, rfl⟩

theorem streamRepeat_staysOver (hx : ∀ n, (x n).isSome ↔ n < len) (h0 : len = 0 → epochs ≠ none) :
    StaysOver (streamRepeat epochs len x) := by
  intro n hn
  unfold streamRepeat at hn ⊢
  cases hep : epochs with
  | none =>
    rw [hep] at hn
    dsimp only at hn
    have hl : 0 < len := Nat.pos_of_ne_zero fun h => h0 h hep
    have := (hx (n % len)).2 (Nat.mod_lt _ hl)
    rw [hn] at this
    cases this
  | some N =>
    rw [hep] at hn
    dsimp only at hn ⊢
    by_cases hlt : n < N * len
    · rw [if_pos hlt] at hn
      have hl : 0 < len := Nat.pos_of_ne_zero fun h => by subst h; omega
      have := (hx (n % len)).2 (Nat.mod_lt _ hl)
      rw [hn] at this
      cases this
    · rw [if_neg (by omega)]

end

/-! ### Rebatch -/

section
variable {b : Nat} {drop : Bool} {x : Nat → Option (List α)} {r : Nat → Option α} {first : Nat → Nat}

theorem concats_some (h : Concats x r first) : ∀ k, (∀ j, j < k → (x j).isSome) → ∀ m, m < first k → (r m).isSome := by
  intro k
  induction k with
  | zero => intro _ m hm; rw [h.zero] at hm; omega
  | succ k ih =>
    intro hj m hm
    obtain ⟨a, ha⟩ := Option.isSome_iff_exists.1 (hj k (by omega))
    obtain ⟨-, h2, h3⟩ := h.block k a ha
    by_cases hlt : m < first k
    · exact ih (fun j hj' => hj j (by omega)) m hlt
    · have := h3 (m - first k) (by omega)
      rw [Nat.add_sub_cancel' (by omega)] at this
      rw [this, List.getElem?_eq_getElem (by omega)]
      rfl

theorem concats_staysOver (h : Concats x r first) : StaysOver r := by
  intro n hn
  by_cases hall : ∀ k, (x k).isSome
  · have hgrow : ∀ k, k ≤ first k := by
      intro k
      induction k with
      | zero => omega
      | succ k ih =>
        obtain ⟨a, ha⟩ := Option.isSome_iff_exists.1 (hall k)
        obtain ⟨h1, h2, -⟩ := h.block k a ha
        have := List.length_pos_iff.2 h1
        omega
    have := concats_some h (n + 1) (fun j _ => hall j) n (by have := hgrow (n + 1); omega)
    rw [hn] at this
    cases this
  · classical
    have hex : ∃ k, x k = none := by
      by_contra hc
      exact hall fun k => by
        cases hk : x k with
        | none => exact absurd ⟨k, hk⟩ hc
        | some a => rfl
    have hk := Nat.find_spec hex
    have hlt : ∀ j, j < Nat.find hex → (x j).isSome := by
      intro j hj
      have := Nat.find_min hex hj
      cases hxj : x j with
      | none => exact absurd hxj this
      | some a => rfl
    refine h.over _ hk _ ?_
    by_contra hc
    have := concats_some h _ hlt n (by omega)
    rw [hn] at this
    cases this

theorem batchPrefix_add (b : Nat) (r : Nat → Option α) (n s t : Nat) :
    batchPrefix b r n (s + t) = batchPrefix b r n s ++ (List.range t).filterMap (fun i => r (n * b + s + i)) := by
  induction t with
  | zero => simp
  | succ t ih =>
    rw [← Nat.add_assoc, batchPrefix_succ, ih, List.range_succ, List.filterMap_append, List.append_assoc]
    congr 2
    have : n * b + s + t = n * b + (s + t) := by omega
    rw [List.filterMap_cons, List.filterMap_nil, this]
    cases r (n * b + (s + t)) <;> rfl

theorem concats_slice (h : Concats x r first) {k : Nat} {a : List α} (ha : x k = some a) {p : Nat} :
    ∀ t, p + t ≤ a.length → (List.range t).filterMap (fun i => r (first k + p + i)) = (a.drop p).take t := by
  intro t
  induction t with
  | zero => intro _; simp
  | succ t ih =>
    intro ht
    have h3 := (h.block k a ha).2.2 (p + t) (by omega)
    rw [List.range_succ, List.filterMap_append, ih (by omega), List.take_add_one, List.getElem?_drop]
    congr 1
    have : first k + p + t = first k + (p + t) := by omega
    rw [List.filterMap_cons, List.filterMap_nil, this, h3]
    cases a[p + t]? <;> rfl

/-- Where a rebatch is after `n` batches: in batch `k` of the parent, which may have to be read again; or at the end. -/
def RbAt (b : Nat) (drop : Bool) (x : Nat → Option (List α)) (r : Nat → Option α) (first : Nat → Nat) (n i : Nat) (ρ : Fin 1 → Nat)
    (d : RbLoc α) : Prop :=
  (∃ a, x (ρ 0) = some a ∧ d.idx ≤ a.length ∧ first (ρ 0) + d.idx = n * b ∧
    ((d.cur = none ∧ i = ρ 0) ∨ (d.cur = some a ∧ i = ρ 0 + 1))) ∨
  (x i = none ∧ ρ 0 = i ∧ streamBatch b drop r n = none ∧ (d.cur = none ∨ ∃ a, d.cur = some a ∧ a.length ≤ d.idx) ∧
    (∀ k, i = k + 1 → x k ≠ none) ∧ first i < (n + 1) * b)

theorem before_some {γ : Type} {x : Nat → Option γ} {k : Nat} {a : γ} (h : x k = some a) : ∀ q, k + 1 = q + 1 → x q ≠ none := by
  intro q hq
  obtain rfl : k = q := by omega
  rw [h]
  simp

/-- The end of the data, with part of a batch. -/
theorem rb_over (h : Concats x r first) (hb : 0 < b) {n k s : Nat} (hk : x k = none) (hk' : ∀ q, k = q + 1 → x q ≠ none) (hs : s < b) (hpos : first k = n * b + s)
    (hlen : (batchPrefix b r n s).length = s) {d : RbLoc α} (hd : d.cur = none ∨ ∃ a, d.cur = some a ∧ a.length ≤ d.idx)
    {acc : Option (List α)} (hacc : acc = some (batchPrefix b r n s) ∨ (acc = none ∧ s = 0)) (hz : drop = true ∨ acc = none ∨ 0 < s)
    (ρ : Fin 1 → Nat) :
    ∃ f d' j ρ', AnEval (rebatchAnchor b drop) x f (RbK.fetch d (b - s) acc) k ρ (streamBatch b drop r n) d' j ρ' ∧
      RbAt b drop x r first (nextPos (streamBatch b drop r) n) j ρ' d' := by
  have hover := concats_staysOver h
  have hr : r (n * b + s) = none := h.over k hk _ (by omega)
  have hp := streamBatch_partial (drop := drop) hover hr hs hlen
  have hn : nextPos x k = k := by simp [nextPos, hk]
  have hout : (rebatchAnchor b drop).resume (RbK.read d (b - s) acc) (x k) = RbK.out (streamBatch b drop r n) d := by
    rw [hk]
    show (if drop = true then RbK.out none d else RbK.out acc d) = _
    cases drop with
    | true => rw [hp]; rfl
    | false =>
      rw [hp]
      show RbK.out acc d = RbK.out (if (batchPrefix b r n s).isEmpty = true then none else some (batchPrefix b r n s)) d
      rcases hacc with rfl | ⟨rfl, rfl⟩
      · have hs0 : 0 < s := by
          rcases hz with h | h | h
          · cases h
          · cases h
          · exact h
        have : (batchPrefix b r n s) ≠ [] := by
          intro hc
          rw [hc] at hlen
          simp at hlen
          omega
        rw [if_neg (by simpa using this)]
      · rw [if_pos (by simp [batchPrefix])]
  refine ⟨0 + 1 + 1, d, k, Function.update ρ 0 k, .mark rfl (.next rfl ?_), Or.inr ⟨hk, update_zero ρ k, ?_, hd, hk', ?_⟩⟩
  · rw [hout, hn]
    exact .ret rfl
  · unfold nextPos
    cases hs' : streamBatch b drop r n with
    | none => exact hs'
    | some v =>
      refine streamBatch_over hover hb hr ?_
      rw [Nat.add_mul]
      omega
  · have h1 := Nat.mul_le_mul_right b (show n + 1 ≤ nextPos (streamBatch b drop r) n + 1 by unfold nextPos; split <;> omega)
    rw [Nat.add_mul n] at h1
    omega

/-- The rows of a batch of which some are left. -/
theorem rb_take (h : Concats x r first) (hb : 0 < b) :
    ∀ (q : Nat) {n k p : Nat} {a : List α} {acc : Option (List α)} {ρ : Fin 1 → Nat}, x k = some a → p < a.length → 0 < q → q ≤ b →
      first k + p = n * b + (b - q) → (batchPrefix b r n (b - q)).length = b - q → acc.getD [] = batchPrefix b r n (b - q) → ρ 0 = k →
      ∃ f d' j ρ', AnEval (rebatchAnchor b drop) x f (rbTake a p q acc) (k + 1) ρ (streamBatch b drop r n) d' j ρ' ∧
        RbAt b drop x r first (nextPos (streamBatch b drop r) n) j ρ' d' := by
  intro q
  induction q using Nat.strongRecOn with
  | ind q ih =>
    intro n k p a acc ρ ha hp hq hqb hpos hlen hacc hρ
    have hnb : (n + 1) * b = n * b + b := by rw [Nat.add_mul]; omega
    unfold rbTake
    by_cases hfit : p + q ≤ a.length
    · rw [if_pos hfit]
      have hall : batchPrefix b r n b = acc.getD [] ++ (a.drop p).take q := by
        have := batchPrefix_add b r n (b - q) q
        rw [Nat.sub_add_cancel hqb] at this
        rw [this, hacc, ← hpos, concats_slice h ha q hfit]
      have hy : streamBatch b drop r n = some (acc.getD [] ++ (a.drop p).take q) := by
        have hl : (batchPrefix b r n b).length = b := by
          rw [hall, List.length_append, hacc, hlen, List.length_take, List.length_drop]
          omega
        unfold streamBatch
        refine Eq.trans (if_pos (Or.inl hl)) ?_
        exact congrArg some hall
      have hny : nextPos (streamBatch b drop r) n = n + 1 := by simp [nextPos, hy]
      refine ⟨0, { cur := some a, idx := p + q }, k + 1, ρ, ?_, Or.inl ⟨a, ?_, hfit, ?_, Or.inr ⟨rfl, ?_⟩⟩⟩
      · rw [hy]
        exact .ret rfl
      · rw [hρ]; exact ha
      · rw [hρ, hny, hnb]
        show first k + (p + q) = _
        omega
      · rw [hρ]
    · rw [if_neg hfit]
      have h2 := (h.block k a ha).2.1
      have hs : b - (q - (a.length - p)) = (b - q) + (a.length - p) := by omega
      have hpre : batchPrefix b r n (b - (q - (a.length - p))) = acc.getD [] ++ a.drop p := by
        rw [hs, batchPrefix_add, hacc, ← hpos, concats_slice h ha (a.length - p) (by omega), List.take_of_length_le (by simp)]
      have hl : (batchPrefix b r n (b - (q - (a.length - p)))).length = b - (q - (a.length - p)) := by
        rw [hpre, List.length_append, hacc, hlen, List.length_drop]
        omega
      cases hx : x (k + 1) with
      | none =>
        have := rb_over (drop := drop) h hb (n := n) hx (before_some ha) (s := b - (q - (a.length - p))) (by omega) (by omega) hl
          (d := { cur := some a, idx := a.length }) (Or.inr ⟨a, rfl, le_rfl⟩) (acc := some (acc.getD [] ++ a.drop p))
          (Or.inl (by rw [hpre])) (Or.inr (Or.inr (by omega))) ρ
        rwa [show b - (b - (q - (a.length - p))) = q - (a.length - p) by omega] at this
      | some a' =>
        have ha' := (h.block (k + 1) a' hx).1
        have hn : nextPos x (k + 1) = k + 1 + 1 := by simp [nextPos, hx]
        obtain ⟨f, d', j, ρ', h5, h6⟩ := ih (q - (a.length - p)) (by omega) (n := n) (k := k + 1) (p := 0) (a := a')
          (acc := some (acc.getD [] ++ a.drop p)) (ρ := Function.update ρ 0 (k + 1)) hx (List.length_pos_iff.2 ha') (by omega) (by omega)
          (by omega) hl (by rw [hpre]; rfl) (update_zero ρ (k + 1))
        refine ⟨f + 1 + 1, d', j, ρ', .mark rfl (.next rfl ?_), h6⟩
        have hres : (rebatchAnchor b drop).resume
            (RbK.read { cur := some a, idx := a.length } (q - (a.length - p)) (some (acc.getD [] ++ a.drop p))) (x (k + 1)) =
              rbTake a' 0 (q - (a.length - p)) (some (acc.getD [] ++ a.drop p)) := by
          rw [hx]
          rfl
        rw [hres, hn]
        exact h5

/-- A batch has to be read first. -/
theorem rb_fetch (h : Concats x r first) (hb : 0 < b) {n k : Nat} {d : RbLoc α} {acc : Option (List α)} (ρ : Fin 1 → Nat)
    (hacc : acc.getD [] = []) (hpos : first k = n * b) (hk' : ∀ q, k = q + 1 → x q ≠ none) (hd : ∃ a, d.cur = some a ∧ a.length ≤ d.idx) (hz : x k = none → drop = true ∨ acc = none)
    (hz2 : acc = none ∨ acc = some []) :
    ∃ f d' j ρ', AnEval (rebatchAnchor b drop) x f (RbK.fetch d b acc) k ρ (streamBatch b drop r n) d' j ρ' ∧
      RbAt b drop x r first (nextPos (streamBatch b drop r) n) j ρ' d' := by
  cases hx : x k with
  | none =>
    refine rb_over (drop := drop) h hb (n := n) hx hk' (s := 0) hb (by omega) (by simp [batchPrefix]) (Or.inr hd) ?_ ?_ ρ
    · rcases hz2 with h | h
      · exact Or.inr ⟨h, rfl⟩
      · exact Or.inl (by rw [h]; simp [batchPrefix])
    · rcases hz hx with h | h
      · exact Or.inl h
      · exact Or.inr (Or.inl h)
  | some a' =>
    have ha' := (h.block k a' hx).1
    have hn : nextPos x k = k + 1 := by simp [nextPos, hx]
    obtain ⟨f, d', j, ρ', h5, h6⟩ := rb_take (drop := drop) h hb b (n := n) (p := 0) (acc := acc) (ρ := Function.update ρ 0 k) hx
      (List.length_pos_iff.2 ha') hb le_rfl (by omega) (by simp [batchPrefix]) (by rw [hacc]; simp [batchPrefix]) (update_zero ρ k)
    refine ⟨f + 1 + 1, d', j, ρ', .mark rfl (.next rfl ?_), h6⟩
    have hres : (rebatchAnchor b drop).resume (RbK.read d b acc) (x k) = rbTake a' 0 b acc := by
      rw [hx]
      obtain ⟨a, hd, -⟩ := hd
      show rbTake a' (if d.cur.isNone = true then d.idx else 0) b acc = _
      rw [hd]
      rfl
    rw [hres, hn]
    exact h5

theorem rebatchAnchor_computes (h : Concats x r first) (hb : 0 < b)
    (hend : drop = true ∨ ∀ k, x k = none → k = 0 ∨ first k % b ≠ 0) :
    AnComputes (rebatchAnchor b drop) x (streamBatch b drop r) (RbAt b drop x r first) := by
  have hover := concats_staysOver h
  have main : ∀ (n i : Nat) (ρ : Fin 1 → Nat) (d : RbLoc α), RbAt b drop x r first n i ρ d →
      ∃ (f : Nat) (d' : RbLoc α) (j : Nat) (ρ' : Fin 1 → Nat),
        AnEval (rebatchAnchor b drop) x f ((rebatchAnchor b drop).start d) i ρ (streamBatch b drop r n) d' j ρ' ∧
          RbAt b drop x r first (nextPos (streamBatch b drop r) n) j ρ' d' := by
    rintro n i ρ ⟨cur, p⟩ (⟨a, h1, h2, h3, h4⟩ | ⟨h1, h2, h3, h4, h5, h6⟩)
    · obtain ⟨k, hk⟩ : ∃ k, ρ 0 = k := ⟨_, rfl⟩
      rw [hk] at h1 h3 h4
      dsimp only at h2 h3 h4
      have hnext := (h.block k a h1).2.1
      have hzz : x (k + 1) = none → first (k + 1) = n * b → drop = true := by
        intro hx hf
        rcases hend with hd | hd
        · exact hd
        · rcases hd (k + 1) hx with h0 | h0
          · omega
          · rw [hf] at h0
            simp at h0
      rcases h4 with ⟨rfl, rfl⟩ | ⟨rfl, rfl⟩
      · -- the batch has to be read again
        have hn : nextPos x i = i + 1 := by simp [nextPos, h1]
        have hs : (rebatchAnchor b drop).start { cur := none, idx := p } = (RbK.fetch { cur := none, idx := p } b none : RbK α) := rfl
        have hres : (rebatchAnchor b drop).resume (RbK.read { cur := none, idx := p } b none) (x i) = rbTake a p b none := by
          rw [h1]
          rfl
        have key : ∃ f d' j ρ', AnEval (rebatchAnchor b drop) x f (rbTake a p b none) (i + 1) (Function.update ρ 0 i) (streamBatch b drop r n) d' j ρ' ∧
            RbAt b drop x r first (nextPos (streamBatch b drop r) n) j ρ' d' := by
          rcases Nat.lt_or_ge p a.length with hlt | hge
          · exact rb_take h hb b h1 hlt hb le_rfl (by omega) (by simp [batchPrefix]) (by simp [batchPrefix]) (update_zero ρ i)
          · have hpl : p = a.length := by omega
            subst hpl
            have hto : rbTake a a.length b none = RbK.fetch { cur := some a, idx := a.length } b (some []) := by
              unfold rbTake
              rw [if_neg (by omega)]
              simp
            rw [hto]
            refine rb_fetch h hb _ rfl (by omega) (before_some h1) ⟨a, rfl, le_rfl⟩ (fun hx => Or.inl (hzz hx (by omega))) (Or.inr rfl)
        obtain ⟨f, d', j, ρ', h5, h6⟩ := key
        refine ⟨f + 1 + 1, d', j, ρ', ?_, h6⟩
        rw [hs]
        refine .mark rfl (.next rfl ?_)
        rw [hres, hn]
        exact h5
      · rcases Nat.lt_or_ge p a.length with hlt | hge
        · have hs : (rebatchAnchor b drop).start { cur := some a, idx := p } = rbTake a p b none := if_neg (by simpa using hlt)
          rw [hs]
          exact rb_take h hb b h1 hlt hb le_rfl (by omega) (by simp [batchPrefix]) (by simp [batchPrefix]) hk
        · have hs : (rebatchAnchor b drop).start { cur := some a, idx := p } = RbK.fetch { cur := some a, idx := p } b none := if_pos hge
          rw [hs]
          exact rb_fetch h hb ρ rfl (by omega) (before_some h1) ⟨a, rfl, hge⟩ (fun _ => Or.inr rfl) (Or.inl rfl)
    · have hn : nextPos x i = i := by simp [nextPos, h1]
      have hs : (rebatchAnchor b drop).start { cur := cur, idx := p } = RbK.fetch { cur := cur, idx := p } b none := by
        dsimp only at h4
        rcases h4 with rfl | ⟨a, rfl, h4⟩
        · rfl
        · exact if_pos h4
      have hres : (rebatchAnchor b drop).resume (RbK.read { cur := cur, idx := p } b none) (x i) = RbK.out none { cur := cur, idx := p } := by
        rw [h1]
        show (if drop = true then RbK.out none _ else RbK.out none _) = _
        split <;> rfl
      refine ⟨0 + 1 + 1, { cur := cur, idx := p }, i, Function.update ρ 0 i, ?_, Or.inr ⟨h1, update_zero ρ i, ?_, h4, h5, ?_⟩⟩
      · rw [hs]
        refine .mark rfl (.next rfl ?_)
        rw [hres, hn, h3]
        exact .ret rfl
      · simp [nextPos, h3]
      · simpa [nextPos, h3] using h6
  have again : ∀ (n i : Nat) (ρ ρ' : Fin 1 → Nat) (d : RbLoc α), ρ' 0 = ρ 0 → RbAt b drop x r first n i ρ d →
      RbAt b drop x r first n (ρ 0) ρ' { cur := none, idx := d.idx } := by
    rintro n i ρ ρ' ⟨cur, p⟩ hu (⟨a, h1, h2, h3, h4⟩ | ⟨h1, h2, h3, h4, h5, h6⟩)
    · refine Or.inl ⟨a, ?_, h2, ?_, Or.inl ⟨rfl, hu.symm⟩⟩
      · rw [hu]; exact h1
      · rw [hu]; exact h3
    · rw [h2]
      exact Or.inr ⟨h1, hu.trans h2, h3, Or.inl rfl, h5, h6⟩
  constructor
  · cases hx : x 0 with
    | none =>
      refine Or.inr ⟨hx, rfl, ?_, Or.inl rfl, fun k hk => by omega, by rw [h.zero]; omega⟩
      exact streamBatch_over hover hb (h.over 0 hx 0 (by rw [h.zero])) (by omega)
    | some a => exact Or.inl ⟨a, hx, Nat.zero_le _, by rw [h.zero]; simp [rebatchAnchor], Or.inl ⟨rfl, rfl⟩⟩
  · intro n i ρ d hat
    exact main n i ρ d hat
  · intro n i ρ d n' i' ρ' d' hat _
    exact ⟨0 + 1, none, { cur := none, idx := d.idx }, ρ 0, Function.update (Function.update ρ' 0 (ρ 0)) 0 (ρ 0), .mark rfl (.ret rfl),
      again n i ρ _ d (update_zero (Function.update ρ' 0 (ρ 0)) (ρ 0)) hat⟩

end

end Grain
