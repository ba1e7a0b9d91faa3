import Verif.Interleave.Props
/-
Iterators that were asked for their state before a state is restored into them, as `flat_map` and `repeat` do with their
input when they are made (T/flatmap.py:81-92, T/repeat.py:90-98).
-/
namespace Grain

/-- "Correctly checkpointing", states being restored into new objects, and into new objects that were asked for their own
state. -/
def ResumesAsked (it : Iter α) (xs : List (Py α)) (ended : Bool) : Prop :=
  ∃ (At : it.S → Nat → Prop) (Ck : it.C → Nat → Prop), SimWhen (fun _ => false) it xs ended At Ck ∧
    ∀ {c m}, Ck c m → m < xs.length ∨ ended = true →
      ∃ s', Ev (fun F => it.set F (it.get it.init).1 c = some (s', none)) ∧ At s' m

theorem Resumes.asked {it : Iter α} {xs : List (Py α)} {ended : Bool} (h : Resumes it xs ended) : ResumesAsked it xs ended := by
  obtain ⟨At, Ck, h⟩ := h
  exact ⟨At, Ck, h.when _, fun hc hm => h.set (h.get h.init).1 hc hm⟩

theorem ResumesAsked.fresh {it : Iter α} {xs : List (Py α)} {ended : Bool} (h : ResumesAsked it xs ended) : ResumesFresh it xs ended := by
  obtain ⟨At, Ck, h, _⟩ := h
  exact ⟨At, Ck, h⟩

/-- Asking a new interleaving iterator for its state opens iterators and asks them for their states. -/
theorem ilGetLoop_new (f : IterFam α) (n : Nat) : ∀ (is : List Nat) (s : ILState f.S f.C) (states : Nat → Option f.C), is.Nodup →
    s.started = false → (∀ i ∈ is, s.slots i = none) → (∀ j, s.exState j = none) → (∀ j, s.kept j = none) →
    (∀ j, s.slots j = none ∨ (s.slots j = some (s.indices j, (f.get (s.indices j) (f.init (s.indices j))).1) ∧ s.indices j < n)) →
    (∀ j, (ilGetLoop f n is s states).1.slots j = none ∨ ((ilGetLoop f n is s states).1.slots j =
        some ((ilGetLoop f n is s states).1.indices j, (f.get ((ilGetLoop f n is s states).1.indices j)
          (f.init ((ilGetLoop f n is s states).1.indices j))).1) ∧ (ilGetLoop f n is s states).1.indices j < n)) ∧
      (∀ j, (ilGetLoop f n is s states).1.exState j = none) ∧ (∀ j, (ilGetLoop f n is s states).1.kept j = none) := by
  intro is
  induction is with
  | nil => intro s states _ _ _ hex hk hs; exact ⟨hs, hex, hk⟩
  | cons i is ih =>
    intro s states hnd hst hnone hex hk hs
    simp only [ilGetLoop, hnone i (List.mem_cons_self ..), hex i]
    split
    · exact ⟨hs, hex, hk⟩
    · rename_i hlt
      have hi := (List.nodup_cons.1 hnd).1
      simp only [hst, Bool.false_eq_true, if_false]
      refine ih _ _ (List.nodup_cons.1 hnd).2 ?_ ?_ ?_ ?_ ?_
      · rfl
      · intro j hj
        have hji : j ≠ i := fun e => hi (e ▸ hj)
        dsimp only
        rw [Function.update_of_ne hji]
        exact hnone j (List.mem_cons_of_mem _ hj)
      · exact hex
      · exact hk
      · intro j
        dsimp only
        by_cases hji : j = i
        · subst hji
          rw [Function.update_self, Function.update_self]
          exact Or.inr ⟨rfl, by omega⟩
        · rw [Function.update_of_ne hji, Function.update_of_ne hji]
          exact hs j

/-- Interleaving keeps this. -/
theorem interleave_asked {f : IterFam α} {n cycle : Nat} (keep : Bool) {xs : Nat → List (Py α)}
    (hn : 0 < n) (hcyc : 0 < cycle) (h : ∀ d, d < n → ResumesAsked (f.iter d) (xs d) true) :
    ∃ tagged : List (Nat × Py α),
      ResumesAsked (interleaveIter f n cycle keep) (tagged.map (·.2)) true ∧
      (∀ d r, (d, r) ∈ tagged → d < n) ∧
      (∀ d, d < n → (tagged.filter (fun q => q.1 = d)).map (·.2) = xs d) := by
  obtain ⟨At, Ck, hs⟩ : ∃ (At : Nat → f.S → Nat → Prop) (Ck : Nat → f.C → Nat → Prop), ∀ d, d < n →
      SimWhen (fun _ => false) (f.iter d) (xs d) true (At d) (Ck d) ∧
      ∀ {c m}, Ck d c m → m < (xs d).length ∨ true = true →
        ∃ s', Ev (fun F => f.set d F (f.get d (f.init d)).1 c = some (s', none)) ∧ At d s' m := by
    have h' : ∀ d, ∃ p : (f.S → Nat → Prop) × (f.C → Nat → Prop), d < n → SimWhen (fun _ => false) (f.iter d) (xs d) true p.1 p.2 ∧
        ∀ {c m}, p.2 c m → m < (xs d).length ∨ true = true →
          ∃ s', Ev (fun F => f.set d F (f.get d (f.init d)).1 c = some (s', none)) ∧ p.1 s' m := by
      intro d
      by_cases hd : d < n
      · obtain ⟨A, C, hs⟩ := h d hd
        exact ⟨(A, C), fun _ => hs⟩
      · exact ⟨(fun _ _ => False, fun _ _ => False), fun hd' => absurd hd' hd⟩
    exact ⟨fun d => (h' d).choose.1, fun d => (h' d).choose.2, fun d hd => (h' d).choose_spec hd⟩
  have hL : 0 < min cycle n := by omega
  obtain ⟨t, ht⟩ := aTrace_exists (xs := xs) (ended := true) (n := n) hL _ (aStart (min cycle n)) (aStart_wf hL) (Or.inl rfl) (Nat.le_refl _)
  have hs1 := fun d hd => (hs d hd).1
  have hsim := (interleave_sim (keep := keep) hs1 hL ht).when
  obtain ⟨c1, c2, _⟩ := ht.contents hL (aStart_wf hL) (Nat.min_le_right _ _)
  refine ⟨t, ⟨_, _, hsim, ?_⟩, c1, ?_⟩
  · rintro c m ⟨hm, A, hck, htr⟩ hlt
    have hg := ilGetLoop_new f n (List.range (min cycle n)) (ilInit f.S f.C) (fun _ => none) List.nodup_range rfl (fun _ _ => rfl)
      (fun _ => rfl) (fun _ => rfl) (fun _ => Or.inl rfl)
    obtain ⟨s', g1, g2⟩ := il_setR hs1 (Nat.min_le_right _ _) (fun _ _ _ h => h) (keep := keep) (tn' := false)
      (R := fun d st => st = (f.get d (f.init d)).1) (fun d st ck m hd hst hc hm => by subst hst; exact (hs d hd).2 hc hm)
      (s := (ilGet f n (min cycle n) (ilInit f.S f.C)).1) hck (fun _ _ _ _ _ => Or.inr rfl) (by
        intro j d o hj
        have : (ilGet f n (min cycle n) (ilInit f.S f.C)).1.kept j = none := by
          unfold ilGet
          dsimp only
          split
          · exact hg.2.2 j
          · exact hg.2.2 j
        rw [this] at hj
        cases hj) (by
        intro j hj
        unfold ilGet
        dsimp only
        split
        · refine ⟨(hg.1 j).imp_right (fun h => ⟨_, h.1, rfl, h.2⟩), Or.inl (hg.2.1 j)⟩
        · refine ⟨(hg.1 j).imp_right (fun h => ⟨_, h.1, rfl, h.2⟩), Or.inl (hg.2.1 j)⟩)
    exact ⟨s', g1, hm, A, g2, htr⟩
  · intro d hd
    simpa using c2 d _ hd (aStart_left xs)

end Grain
