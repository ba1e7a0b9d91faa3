import Verif.Elastic.Model
import Verif.Interleave.Sim
import Mathlib.Data.List.Nodup
/-
The state built by `set_shard_states` is a state of an interleave iterator.
-/
namespace Grain

section
variable {C : Type} {shards : List (ShardState C)} {L : Nat}

/-- Shards with their numbers. -/
def activeShards (shards : List (ShardState C)) : List (ShardState C × Nat) := shards.zipIdx.filter (fun q => !q.1.exhausted)
def overShards (shards : List (ShardState C)) : List (ShardState C × Nat) := shards.zipIdx.filter (fun q => q.1.exhausted)

theorem mem_active {q : ShardState C × Nat} : q ∈ activeShards shards ↔ shards[q.2]? = some q.1 ∧ q.1.exhausted = false := by
  simp [activeShards, List.mem_filter, List.mem_zipIdx_iff_getElem?]

theorem mem_over {q : ShardState C × Nat} : q ∈ overShards shards ↔ shards[q.2]? = some q.1 ∧ q.1.exhausted = true := by
  simp [overShards, List.mem_filter, List.mem_zipIdx_iff_getElem?]

theorem zipIdx_sorted : ∀ (l : List β) (k : Nat), (l.zipIdx k).Pairwise (fun a b => a.2 < b.2)
  | [], _ => by simp
  | a :: l, k => by
    rw [List.zipIdx_cons, List.pairwise_cons]
    refine ⟨?_, zipIdx_sorted l (k + 1)⟩
    intro q hq
    have := List.le_snd_of_mem_zipIdx hq
    dsimp only
    omega

theorem active_sorted : (activeShards shards).Pairwise (fun a b => a.2 < b.2) := (zipIdx_sorted shards 0).filter _
theorem over_sorted : (overShards shards).Pairwise (fun a b => a.2 < b.2) := (zipIdx_sorted shards 0).filter _

theorem filter_length_add (p : β → Bool) (l : List β) : (l.filter (fun x => !p x)).length + (l.filter p).length = l.length := by
  induction l with
  | nil => rfl
  | cons a l ih =>
    by_cases h : p a = true
    · simp [h]; omega
    · simp [h]; omega

theorem active_over_length : (activeShards shards).length + (overShards shards).length = shards.length := by
  have := filter_length_add (fun q : ShardState C × Nat => q.1.exhausted) shards.zipIdx
  rw [List.length_zipIdx] at this
  exact this

theorem shardSlots_eq : shardSlots L shards = ((activeShards shards).take L).map (fun q => (q.2, q.1.state, false)) ++
    ((overShards shards).take (L - ((activeShards shards).take L).length)).map (fun q => (q.2, q.1.state, true)) := rfl

theorem shardSlots_length (h : L ≤ shards.length) : (shardSlots L shards).length = L := by
  have := active_over_length (shards := shards)
  rw [shardSlots_eq, List.length_append, List.length_map, List.length_map, List.length_take, List.length_take]
  omega

theorem foldl_max_ge (l : List Nat) : ∀ (a : Nat), a ≤ l.foldl max a ∧ ∀ x ∈ l, x ≤ l.foldl max a := by
  induction l with
  | nil => intro a; simp
  | cons b l ih =>
    intro a
    obtain ⟨h1, h2⟩ := ih (max a b)
    rw [List.foldl_cons]
    refine ⟨by omega, ?_⟩
    intro x hx
    rcases List.mem_cons.1 hx with rfl | hx
    · omega
    · exact h2 x hx

theorem foldl_max_mem (l : List Nat) : ∀ (a : Nat), l.foldl max a = a ∨ l.foldl max a ∈ l := by
  induction l with
  | nil => intro a; simp
  | cons b l ih =>
    intro a
    rw [List.foldl_cons]
    rcases ih (max a b) with h | h
    · rw [h]
      by_cases hab : b ≤ a
      · left; omega
      · right
        rw [show max a b = b by omega]
        exact List.mem_cons_self
    · right; exact List.mem_cons_of_mem _ h

theorem lt_shardNext {q : ShardState C × Nat} (h : q ∈ (activeShards shards).take L) : q.2 < shardNext L shards := by
  unfold shardNext
  change q ∈ List.take L (List.filter _ _) at h
  generalize List.take L (List.filter _ _) = l at h
  cases l with
  | nil => cases h
  | cons a l =>
    obtain ⟨h1, h2⟩ := foldl_max_ge (l.map (·.2)) a.2
    dsimp only
    rcases List.mem_cons.1 h with rfl | h
    · omega
    · have := h2 q.2 (List.mem_map.2 ⟨q, h, rfl⟩)
      omega

theorem shardNext_mem (h : 0 < shardNext L shards) : ∃ q ∈ (activeShards shards).take L, shardNext L shards = q.2 + 1 := by
  unfold shardNext at *
  change ∃ q ∈ List.take L (List.filter _ _), _
  generalize List.take L (List.filter _ _) = l at *
  cases l with
  | nil => exact absurd h (by simp)
  | cons a l =>
    dsimp only
    rcases foldl_max_mem (l.map (·.2)) a.2 with e | e
    · exact ⟨a, List.mem_cons_self, by rw [e]⟩
    · obtain ⟨q, hq, e⟩ := List.mem_map.1 e
      exact ⟨q, List.mem_cons_of_mem _ hq, by rw [e]⟩

/-- A shard that is not over and not in use comes later. -/
theorem drop_ge_next {q : ShardState C × Nat} (h : q ∈ (activeShards shards).drop L) : shardNext L shards ≤ q.2 := by
  by_contra hcon
  obtain ⟨r, hr, e⟩ := shardNext_mem (L := L) (shards := shards) (by omega)
  have hs := active_sorted (shards := shards)
  rw [← List.take_append_drop L (activeShards shards), List.pairwise_append] at hs
  have := hs.2.2 r hr q h
  omega

theorem active_take_of_lt {q : ShardState C × Nat} (h : q ∈ activeShards shards) (hL : 0 < L) (hlt : q.2 < shardNext L shards) :
    q ∈ (activeShards shards).take L := by
  rw [← List.take_append_drop L (activeShards shards), List.mem_append] at h
  rcases h with h | h
  · exact h
  · have := drop_ge_next h
    omega

/-- The numbers in the slots. -/
theorem shardSlots_nodup : ((shardSlots L shards).map (·.1)).Nodup := by
  rw [shardSlots_eq, List.map_append, List.nodup_append, List.map_map, List.map_map]
  refine ⟨?_, ?_, ?_⟩
  · have h : ((activeShards shards).take L).Pairwise (fun a b => a.2 < b.2) := active_sorted.sublist (List.take_sublist _ _)
    exact List.pairwise_map.2 (h.imp (fun h e => by simp only [Function.comp_def] at e; omega))
  · have h : ((overShards shards).take (L - ((activeShards shards).take L).length)).Pairwise (fun a b => a.2 < b.2) :=
      over_sorted.sublist (List.take_sublist _ _)
    exact List.pairwise_map.2 (h.imp (fun h e => by simp only [Function.comp_def] at e; omega))
  · intro a ha b hb e
    obtain ⟨q, hq, rfl⟩ := List.mem_map.1 ha
    obtain ⟨r, hr, rfl⟩ := List.mem_map.1 hb
    simp only [Function.comp_def] at e
    have h1 := mem_active.1 (List.mem_of_mem_take hq)
    have h2 := mem_over.1 (List.mem_of_mem_take hr)
    rw [e, h2.1] at h1
    have := Option.some.inj h1.1
    rw [← this, h2.2] at h1
    cases h1.2

theorem mem_shardSlots {d : Nat} {c : Option C} {b : Bool} (h : (d, c, b) ∈ shardSlots L shards) :
    shards[d]? = some ⟨b, c⟩ ∧ (b = false → d < shardNext L shards) := by
  rw [shardSlots_eq, List.mem_append] at h
  rcases h with h | h
  · obtain ⟨q, hq, e⟩ := List.mem_map.1 h
    cases e
    obtain ⟨h1, h2⟩ := mem_active.1 (List.mem_of_mem_take hq)
    refine ⟨by rw [h1, ← h2], fun _ => lt_shardNext hq⟩
  · obtain ⟨q, hq, e⟩ := List.mem_map.1 h
    cases e
    obtain ⟨h1, h2⟩ := mem_over.1 (List.mem_of_mem_take hq)
    exact ⟨by rw [h1, ← h2], fun h => by cases h⟩

theorem active_in_slots {d : Nat} {s : ShardState C} (h : shards[d]? = some s) (ha : s.exhausted = false) (hL : 0 < L)
    (hlt : d < shardNext L shards) : (d, s.state, false) ∈ shardSlots L shards := by
  rw [shardSlots_eq, List.mem_append]
  exact Or.inl (List.mem_map.2 ⟨(s, d), active_take_of_lt (mem_active.2 ⟨h, ha⟩) hL hlt, rfl⟩)

theorem shardNext_le : shardNext L shards ≤ shards.length := by
  by_contra hcon
  obtain ⟨q, hq, e⟩ := shardNext_mem (L := L) (shards := shards) (by omega)
  have := lt_of_getElem?_some (mem_active.1 (List.mem_of_mem_take hq)).1
  omega

/-- When all used-up datasets come before the next dataset to open. -/
theorem le_shardNext (hn : L ≤ shards.length) (hover : ∀ d s, shards[d]? = some s → s.exhausted = true → d < shardNext L shards) :
    L ≤ shardNext L shards := by
  have hlen := shardSlots_length hn
  have hsub : (shardSlots L shards).map (·.1) ⊆ List.range (shardNext L shards) := by
    intro d hd
    obtain ⟨⟨d', c, b⟩, hm, rfl⟩ := List.mem_map.1 hd
    obtain ⟨h1, h2⟩ := mem_shardSlots hm
    rw [List.mem_range]
    cases b with
    | false => exact h2 rfl
    | true => exact hover _ _ h1 rfl
  have := (List.subperm_of_subset shardSlots_nodup hsub).length_le
  rw [List.length_map, List.length_range, hlen] at this
  exact this

theorem shardFuture_active {d : Nat} {s : ShardState C} (h : shards[d]? = some s) (ha : s.exhausted = false)
    (hle : shardNext L shards ≤ d) : shardFuture L shards d = s.state := by
  have hmem : (s, d) ∈ (activeShards shards).drop L := by
    have hm : (s, d) ∈ activeShards shards := mem_active.2 ⟨h, ha⟩
    rw [← List.take_append_drop L (activeShards shards), List.mem_append] at hm
    rcases hm with hm | hm
    · have := lt_shardNext hm
      dsimp only at this
      omega
    · exact hm
  unfold shardFuture
  change Option.bind (List.find? _ ((activeShards shards).drop L)) _ = _
  cases hf : List.find? (fun q => decide (q.2 = d)) ((activeShards shards).drop L) with
  | none =>
    have := List.find?_eq_none.1 hf _ hmem
    simp at this
  | some q =>
    have hq := List.find?_some hf
    have hm := List.mem_of_find?_eq_some hf
    simp at hq
    obtain ⟨h1, h2⟩ := mem_active.1 (List.mem_of_mem_drop hm)
    rw [hq, h] at h1
    rw [Option.bind_some, ← Option.some.inj h1]

theorem shardFuture_none {d : Nat} (h : ∀ s, shards[d]? = some s → s.exhausted = true) : shardFuture L shards d = none := by
  unfold shardFuture
  change Option.bind (List.find? _ ((activeShards shards).drop L)) _ = _
  cases hf : List.find? (fun q => decide (q.2 = d)) ((activeShards shards).drop L) with
  | none => rfl
  | some q =>
    have hq := List.find?_some hf
    have hm := List.mem_of_find?_eq_some hf
    simp at hq
    obtain ⟨h1, h2⟩ := mem_active.1 (List.mem_of_mem_drop hm)
    rw [hq] at h1
    rw [h _ h1] at h2
    cases h2

end

/-! ### The machine state -/

/-- `pos d` is the position of the state of dataset `d`. -/
def shardMachine (L : Nat) (shards : List (ShardState C)) (pos : Nat → Nat) : AIL where
  slots i := match (shardSlots L shards)[i]? with
    | some (d, _, false) => some (d, pos d)
    | _ => none
  cyc := 0
  nextDs := shardNext L shards
  starts d := if shardFuture L shards d = none then 0 else pos d

theorem shardMachine_slot {L : Nat} {shards : List (ShardState C)} {pos : Nat → Nat} {i d p : Nat}
    (h : (shardMachine L shards pos).slots i = some (d, p)) :
    ∃ c, (shardSlots L shards)[i]? = some (d, c, false) ∧ p = pos d := by
  simp only [shardMachine] at h
  split at h
  · rename_i d' c hd
    cases h
    exact ⟨c, hd, rfl⟩
  · cases h

theorem shardMachine_wf {L n : Nat} {shards : List (ShardState C)} {pos : Nat → Nat} (hL : 0 < L) :
    AWF n L (shardMachine L shards pos) := by
  refine ⟨hL, ?_, ?_⟩
  · intro i d p _ h
    obtain ⟨c, h1, _⟩ := shardMachine_slot h
    exact (mem_shardSlots (List.mem_of_getElem? h1)).2 rfl
  · intro i j d p q _ _ h1 h2
    obtain ⟨c1, h1, _⟩ := shardMachine_slot h1
    obtain ⟨c2, h2, _⟩ := shardMachine_slot h2
    have e1 : ((shardSlots L shards).map (·.1))[i]? = some d := by rw [List.getElem?_map, h1]; rfl
    have e2 : ((shardSlots L shards).map (·.1))[j]? = some d := by rw [List.getElem?_map, h2]; rfl
    have hlt := lt_of_getElem?_some e1
    exact (List.getElem?_inj hlt shardSlots_nodup).1 (e1.trans e2.symm)

section
variable {f : IterFam α} {xs : Nat → List (Py α)} {n L : Nat} {Ck : Nat → f.C → Nat → Prop} {pos : Nat → Nat}
  {shards : List (ShardState f.C)}

/-- States of the datasets: those that are not over at their positions. -/
structure ShardsAt (Ck : Nat → f.C → Nat → Prop) (n : Nat) (pos : Nat → Nat) (shards : List (ShardState f.C)) : Prop where
  len : shards.length = n
  live : ∀ (d : Nat) (s : ShardState f.C), shards[d]? = some s → s.exhausted = false → ∃ c, s.state = some c ∧ Ck d c (pos d)
  over : ∀ (d : Nat) (s : ShardState f.C), shards[d]? = some s → s.exhausted = true → ∃ c, s.state = some c

theorem shardCk_rel (h : ShardsAt Ck n pos shards) (hL : 0 < L) (hLn : L ≤ n)
    (hover : ∀ d s, shards[d]? = some s → s.exhausted = true → d < shardNext L shards) :
    ILCkRel xs true Ck (fun _ _ => True) false n L false (shardCk L shards) (shardMachine L shards pos) := by
  have hslen := shardSlots_length (L := L) (shards := shards) (by rw [h.len]; exact hLn)
  have hge := le_shardNext (L := L) (shards := shards) (by rw [h.len]; exact hLn) hover
  have hle := shardNext_le (L := L) (shards := shards)
  rw [h.len] at hle
  have hidx : ∀ i, i < L → ∃ d c b, (shardSlots L shards)[i]? = some (d, c, b) ∧ (shardCk L shards).indices i = d := by
    intro i hi
    have : (shardSlots L shards)[i]? = some ((shardSlots L shards)[i]'(by omega)) := List.getElem?_eq_getElem _
    exact ⟨_, _, _, this, by simp only [shardCk, this]; rfl⟩
  refine ⟨rfl, hL, ?_, rfl, hge, hle, ?_, ?_⟩
  · intro i hi
    obtain ⟨d, c, b, e, hd⟩ := hidx i hi
    obtain ⟨h1, h2⟩ := mem_shardSlots (List.mem_of_getElem? e)
    have hdn := lt_of_getElem?_some h1
    rw [h.len] at hdn
    rw [hd]
    have est : (shardCk L shards).states i = c := by simp only [shardCk, e]; rfl
    have eex : (shardCk L shards).exhausted i = b := by simp only [shardCk, e]; rfl
    rw [est, eex]
    cases b with
    | false =>
      obtain ⟨k, hk, hck⟩ := h.live d _ h1 rfl
      have esl : (shardMachine L shards pos).slots i = some (d, pos d) := by simp only [shardMachine, e]
      rw [esl]
      exact .live k _ hk (Or.inl rfl) hck hdn
    | true =>
      obtain ⟨k, hk⟩ := h.over d _ h1 rfl
      have esl : (shardMachine L shards pos).slots i = none := by simp only [shardMachine, e]
      rw [esl]
      exact .over k hk rfl trivial hdn
  · intro d hd
    change shardNext L shards ≤ d at hd
    change (shardFuture L shards d = none ∧ _) ∨ ∃ k, shardFuture L shards d = some k ∧ _
    cases hs : shards[d]? with
    | none =>
      have : shardFuture L shards d = none := shardFuture_none (fun s h => by rw [hs] at h; cases h)
      exact Or.inl ⟨this, by simp only [shardMachine, this, if_true]⟩
    | some s =>
      cases hx : s.exhausted with
      | true => have := hover d s hs hx; omega
      | false =>
        obtain ⟨c, hc, hck⟩ := h.live d s hs hx
        have := shardFuture_active hs hx hd
        rw [hc] at this
        refine Or.inr ⟨c, this, ?_, Or.inr rfl⟩
        simpa only [shardMachine, this, reduceCtorEq, if_false] using hck
  · refine ⟨?_, ?_, ?_, by simp⟩
    · intro i hi
      obtain ⟨d, c, b, e, hd⟩ := hidx i hi
      obtain ⟨h1, h2⟩ := mem_shardSlots (List.mem_of_getElem? e)
      rw [hd]
      have : d < shardNext L shards := by
        cases b with
        | false => exact h2 rfl
        | true => exact hover _ _ h1 rfl
      change d < max (shardNext L shards) L
      omega
    · intro i j hi hj he
      obtain ⟨d, c, b, e, hd⟩ := hidx i hi
      obtain ⟨d', c', b', e', hd'⟩ := hidx j hj
      rw [hd, hd'] at he
      subst he
      have e1 : ((shardSlots L shards).map (·.1))[i]? = some d := by rw [List.getElem?_map, e]; rfl
      have e2 : ((shardSlots L shards).map (·.1))[j]? = some d := by rw [List.getElem?_map, e']; rfl
      exact (List.getElem?_inj (lt_of_getElem?_some e1) shardSlots_nodup).1 (e1.trans e2.symm)
    · intro i hi hle'
      change shardNext L shards ≤ i at hle'
      omega

/-- What is left of each dataset. -/
theorem shardMachine_left (h : ShardsAt Ck n pos shards) (hL : 0 < L) (hLn : L ≤ n)
    (hover : ∀ d s, shards[d]? = some s → s.exhausted = true → d < shardNext L shards) {d : Nat} {s : ShardState f.C}
    (hs : shards[d]? = some s) :
    Left xs L (shardMachine L shards pos) d (if s.exhausted then [] else (xs d).drop (pos d)) := by
  have hslen := shardSlots_length (L := L) (shards := shards) (by rw [h.len]; exact hLn)
  cases hx : s.exhausted with
  | true =>
    rw [if_pos rfl]
    refine .over (hover d s hs hx) ?_
    intro i p hi hsl
    obtain ⟨c, h1, _⟩ := shardMachine_slot hsl
    have := (mem_shardSlots (List.mem_of_getElem? h1)).1
    rw [hs] at this
    rw [Option.some.inj this] at hx
    cases hx
  | false =>
    rw [if_neg (by simp)]
    by_cases hlt : d < shardNext L shards
    · have hm := active_in_slots hs hx hL hlt
      obtain ⟨i, hi⟩ := List.getElem?_of_mem hm
      have := lt_of_getElem?_some hi
      exact .slot i (pos d) (by omega) (by simp only [shardMachine, hi])
    · obtain ⟨c, hc, hck⟩ := h.live d s hs hx
      have hfu := shardFuture_active hs hx (show shardNext L shards ≤ d by omega)
      rw [hc] at hfu
      have e : (xs d).drop (pos d) = (xs d).drop ((shardMachine L shards pos).starts d) := by
        simp only [shardMachine, hfu, reduceCtorEq, if_false]
      rw [e]
      exact .later (show shardNext L shards ≤ d by omega)

end

end Grain
