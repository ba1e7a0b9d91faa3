import Verif.Testing.Lemmas
/-
C72: what passing `assert_equal_output_after_checkpoint` means, and for which iterators it passes.
-/
namespace Grain

/-- A user reads `i` elements, taking a checkpoint before each, takes one more checkpoint, loses the object, restores that
checkpoint into a new object, and reads `k` times. -/
def crashAfter (i k : Nat) : List Op := saveAndRead i ++ [.save, .fresh i, .save, .save] ++ List.replicate k .next

/-- C72: if the test passes, the dataset yields some elements `xs` and ends, and after a crash at any point before the last
element the rest of `xs` is read, no more and no less.
Partial: crashes after the last element (`checkpoint_test_misses_end`) and restores into used iterators
(`checkpoint_test_misses_used`) are not covered, and passing says nothing about them. -/
theorem checkpoint_test_sound_partial {it : Iter α} [DecidableEq α] [DecidableEq σ] {specOf : it.C → σ} {same : it.C → it.C → Bool}
    {F : Nat} (h : checkpointTest it specOf same F = some (.ok ())) :
    ∃ xs : List α, xs ≠ [] ∧
      implRun it F it.init [] (saveAndRead xs.length ++ [.save, .next]) = some (xs.map Res.item ++ [.stop]) ∧
      ∀ i, i < xs.length →
        implRun it F it.init [] (crashAfter i (xs.length - i + 1)) = some (xs.map Res.item ++ [.stop]) := by
  unfold checkpointTest at h
  cases hc : ckCollect it specOf F F it.init none [] [] with
  | none => rw [hc] at h; cases h
  | some q =>
    rw [hc] at h
    cases q with
    | error e => cases h
    | ok p =>
      obtain ⟨cs, vs⟩ := p
      simp only at h
      split at h
      · cases h
      · rename_i hne
        obtain ⟨dcs, dvs, h1, h2, h3, h4⟩ := ckCollect_run hc
        rw [List.nil_append] at h1 h2
        subst h1 h2
        refine ⟨vs, hne, ?_, ?_⟩
        · obtain ⟨si, h5, _, h7⟩ := h4 vs.length (Nat.le_refl _)
          obtain ⟨s', h8⟩ := h7 rfl
          rw [h5]
          simp [implRun, h8]
        · intro i hi
          obtain ⟨si, h5, h6, _⟩ := h4 i (by omega)
          have hci : cs[i]? = some cs[i] := List.getElem?_eq_getElem (by omega)
          have hr := ckReplays_all h i _ hci
          rw [Nat.zero_add] at hr
          have hget := h6 _ hci
          unfold crashAfter
          rw [List.append_assoc, h5]
          have hlen : (cs.take i).length = i := by simp; omega
          have hidx : ([] ++ List.take i cs ++ [cs[i]])[i]? = some cs[i] := by
            rw [List.nil_append, List.getElem?_append_right (by omega), hlen, Nat.sub_self]; rfl
          simp only [List.cons_append, List.nil_append, implRun, hget, Option.bind_eq_bind] at hidx ⊢
          rw [hidx, Option.bind_some]
          unfold ckReplay at hr
          cases hs : it.set F it.init cs[i] with
          | none => rw [hs] at hr; cases hr
          | some p =>
            obtain ⟨s1, o⟩ := p
            cases o with
            | some e => rw [hs] at hr; cases hr
            | none =>
              rw [hs] at hr
              simp only [Option.bind_some] at hr ⊢
              split at hr
              · cases hd : ckDrain it F F (it.get (it.get s1).1).1 with
                | none => rw [hd] at hr; cases hr
                | some q =>
                  rw [hd] at hr
                  cases q with
                  | error e => cases hr
                  | ok ws =>
                    simp only at hr
                    split at hr
                    · rename_i hws
                      subst hws
                      have hdr := ckDrain_run hd
                      rw [List.length_drop] at hdr
                      rw [show List.replicate (vs.length - i + 1) Op.next = List.replicate (vs.length - i) .next ++ [.next] from
                        List.replicate_succ', hdr, Option.map_some, ← List.append_assoc, ← List.map_append, List.take_append_drop]
                    · cases hr
              · cases hr

/-- C72, the other direction: the test passes for every iterator that resumes exactly in new objects (`SimWhen`: the
hypothesis of all theorems on checkpoints, here without any demand on used objects), has elements and ends, provided that its
states all have one specification and that the state read back after a restore is the restored one. -/
theorem checkpoint_test_accepts {it : Iter α} [DecidableEq α] [DecidableEq σ] {specOf : it.C → σ} {same : it.C → it.C → Bool}
    {xs : List α} {At : it.S → Nat → Prop} {Ck : it.C → Nat → Prop}
    (h : SimWhen (fun _ => false) it (xs.map Except.ok) true At Ck) (hne : xs ≠ [])
    (hspec : ∀ c m c' m', Ck c m → Ck c' m' → specOf c = specOf c')
    (hsame : ∀ c m F s, Ck c m → it.set F it.init c = some (s, none) → same (it.get s).2 c = true) :
    Ev (fun F => checkpointTest it specOf same F = some (.ok ())) := by
  have h0 := (h.get h.init).2
  obtain ⟨dcs, h1, h2, h3⟩ := ckCollect_sim (specOf := specOf) h (specOf (it.get it.init).2)
    (fun c m hc => hspec _ _ _ _ hc h0) xs.length h.init (by simp)
  have hreps : Ev (fun F => ∀ i ∈ List.range dcs.length, ∀ c, dcs[i]? = some c →
      ckReplay it same F c (xs.drop (0 + i)) = some (.ok ())) := by
    apply Ev.forall_list
    intro i hi
    rw [List.mem_range] at hi
    have hci : dcs[i]? = some dcs[i] := List.getElem?_eq_getElem hi
    have hck := h2 i _ hci
    obtain ⟨s', h4, h5⟩ := h.set_init hck (.inr rfl)
    have h6 := (h.get (h.get h5).1).1
    have h7 := ckDrain_sim h (xs.length - i) h6 (by omega)
    refine (h4.mono₂ (h7.ge (xs.length + 1)) ?_)
    intro F e1 e2 c hc
    rw [hci] at hc
    cases hc
    unfold ckReplay
    rw [e1]
    simp only
    rw [if_pos (hsame _ _ F _ hck e1), e2.2 F (by omega)]
    simp
  refine (h3.ge (xs.length + 1)).mono₂ hreps ?_
  intro F e1 e2
  unfold checkpointTest
  rw [e1.2 F none [] [] (by omega) (.inl rfl)]
  simp only [List.nil_append, List.drop_zero, if_neg hne]
  apply ckReplays_of_all
  intro i c hc
  have hi : i < dcs.length := by
    by_contra hcc
    rw [List.getElem?_eq_none (by omega)] at hc
    cases hc
  exact e2 i (List.mem_range.2 hi) c hc

/-- The hypotheses are met by an iterator over any list; the specification of a state is that it is a number. -/
example (xs : List Nat) (hne : xs ≠ []) :
    Ev (fun F => checkpointTest (listIter (xs.map Except.ok)) (fun _ => "int[]") (fun a b : Nat => decide (a = b)) F =
      some (.ok ())) := by
  obtain ⟨At, Ck, h⟩ := listIter_resumes (xs.map (Except.ok (ε := Err)))
  refine checkpoint_test_accepts (h.when _) hne (fun _ _ _ _ _ _ => rfl) ?_
  intro c m F s _ hs
  cases hs
  have hc : ∀ n : Nat, decide (n = n) = true := fun n => by simp
  exact hc c

/-- A wrong `set_state` (one element too far) is found. -/
example : Ev (fun F => checkpointTest { listIter [.ok 5, .ok 6, .ok 7] with set := fun _ _ (c : Nat) => some (c + 1, none) }
    (fun _ => ()) (fun _ _ => true) F = some (.error .assertion)) := by
  refine ⟨5, fun F hF => ?_⟩
  obtain ⟨k, rfl⟩ : ∃ k, F = k + 5 := ⟨F - 5, by omega⟩
  rfl

/-- A user's iterator over two elements that stores its position modulo the length: the state at the end is that of the
beginning. -/
def wrappingIter : Iter Nat where
  S := Nat
  C := Nat
  init := 0
  next := fun _ s => if s < 2 then some (s + 1, .item s) else some (s, .stop)
  get := fun s => (s, s % 2)
  set := fun _ _ c => some (c, none)

/-- The test is not complete (F64): it never restores the state taken after the last element, so it passes for an iterator that
starts again from the beginning when that state is restored. -/
theorem checkpoint_test_misses_end :
    Ev (fun F => checkpointTest wrappingIter (fun _ => ()) (fun a b : Nat => decide (a = b)) F = some (.ok ())) ∧
    Ev (fun F => implRun wrappingIter F wrappingIter.init [] [.next, .next, .save, .fresh 0, .next] =
      some [.item 0, .item 1, .item 0]) := by
  refine ⟨⟨3, fun F hF => ?_⟩, Ev.of_forall (fun F => rfl)⟩
  obtain ⟨k, rfl⟩ : ∃ k, F = k + 3 := ⟨F - 3, by omega⟩
  rfl

/-- Nor does it restore into used iterators (F64): it passes for `flat_map`, which then yields an element again (F4). -/
theorem checkpoint_test_misses_used :
    Ev (fun F => checkpointTest (flatMapIter (fun a => .ok [a, a + 1]) (listIter [.ok 10])) (fun _ => ())
      (fun a b : Nat × Nat => decide (a = b)) F = some (.ok ())) ∧
    ¬ ResumesExactly (flatMapIter (fun a => .ok [a, a + 1]) (listIter [.ok 10])) [.ok 10, .ok 11] true := by
  refine ⟨⟨9, fun F hF => ?_⟩, flatMap_end_restored_into_used⟩
  obtain ⟨k, rfl⟩ : ∃ k, F = k + 9 := ⟨F - 9, by omega⟩
  rfl

end Grain
