import Verif.ElemSpec.Props
import Verif.ThreadPrefetch.Props
import Verif.ProcPrefetch.Props
/-
C65 above prefetching threads and worker processes: whatever the schedule, and whatever the calls of the user, the elements
are as `get_element_spec` says.  `ThreadPrefetchIterDataset` and `ProcessPrefetchIterDataset` return the specification of their
parent (`parentSpec`).
-/
namespace Grain

/-- What an iterator without threads returns are elements of the stream. -/
theorem idealRun_items {x : Nat → Option (Py α)} {idx : Nat → Bool} : ∀ (prog : List TOp) (pos last : Nat) (mv cl : Bool) (saved : List Nat)
    (outs : List (Res α ⊕ Int)), idealRun x idx pos last mv cl saved prog = some outs → ∀ a, .inl (.item a) ∈ outs →
    ∃ n, x n = some (.ok a) := by
  intro prog
  induction prog with
  | nil =>
    intro pos last mv cl saved outs h a ha
    simp only [idealRun, Option.some.injEq] at h
    subst h
    cases ha
  | cons op prog ih =>
    intro pos last mv cl saved outs h a ha
    have key : ∀ {pos last mv cl saved} {o : Res α ⊕ Int}, (idealRun x idx pos last mv cl saved prog).map (o :: ·) = some outs →
        (o = .inl (.item a) → ∃ n, x n = some (.ok a)) → ∃ n, x n = some (.ok a) := by
      intro pos last mv cl saved o h ho
      obtain ⟨o', h1, h2⟩ := option_map_some h
      subst h2
      rcases List.mem_cons.1 ha with h | h
      · exact ho h.symm
      · exact ih _ _ _ _ _ _ h1 a h
    cases op <;> cases cl <;> simp only [idealRun] at h
    all_goals (repeat' split at h)
    all_goals first
      | (cases h; done)
      | exact ih _ _ _ _ _ _ h a ha
      | (refine key h (fun he => ?_); first | (cases he; done) | (cases he; exact ⟨_, ‹_›⟩))

/-- What the iterator above a worker process returns are elements of the stream. -/
theorem viewRun_items {x : Nat → Option (Py α)} {idx : Nat → Bool} {crashes : Bool} {v w : PView} {ops : List TOp}
    {outs : List (Res α ⊕ Int)} (h : ViewRun x idx crashes v ops outs w) : ∀ a, .inl (.item a) ∈ outs → ∃ n, x n = some (.ok a) := by
  induction h with
  | nil => intro a ha; cases ha
  | @call ops outs w op w' o _ hstep ih =>
    intro a ha
    rcases List.mem_append.1 ha with h | h
    · exact ih a h
    · cases op <;> simp only [viewStep] at hstep
      case next =>
        repeat' split at hstep
        all_goals (cases hstep; simp only [List.mem_singleton] at h; cases h)
        exact ⟨_, ‹_›⟩
      case restore k => obtain ⟨q, _, hr⟩ := option_map_some hstep; cases hr; cases h
      case fresh k => obtain ⟨q, _, hr⟩ := option_map_some hstep; cases hr; cases h
      all_goals (repeat' split at hstep)
      all_goals (cases hstep <;> simp at h)
  | crash hc _ _ _ ih =>
    intro a ha
    rcases List.mem_append.1 ha with h | h
    · exact ih a h
    · simp at h

/-- A stream, finite or endless, whose elements have a specification: what `IterHasSpec` says of finite streams, and of every
beginning of endless ones. -/
def StreamHasSpec {N : Numpy} (it : Iter (Option (Elem N))) (x : Nat → Option (Py (Option (Elem N)))) (o : Py (ElemSpec N)) : Prop :=
  (∃ xs, IterHasSpec it xs true o ∧ x = fun n => xs[n]?) ∨
  (∃ y, (∀ n, IterHasSpec it ((List.range n).map y) false o) ∧ x = fun n => some (y n))

theorem StreamHasSpec.resumes {N : Numpy} {it : Iter (Option (Elem N))} {x : Nat → Option (Py (Option (Elem N)))}
    {o : Py (ElemSpec N)} (h : StreamHasSpec it x o) : ResumesStream it x := by
  rcases h with ⟨xs, h, rfl⟩ | ⟨y, h, rfl⟩
  · exact h.resumes.stream
  · exact Resumes.streamEndless (fun n => (h n).resumes)

theorem StreamHasSpec.conforms {N : Numpy} (L : N.Lawful) {it : Iter (Option (Elem N))} {x : Nat → Option (Py (Option (Elem N)))}
    {s : ElemSpec N} (h : StreamHasSpec it x (.ok s)) {n : Nat} {e : Elem N} (he : x n = some (.ok (some e))) : Conforms s e := by
  rcases h with ⟨xs, h, rfl⟩ | ⟨y, h, rfl⟩
  · exact (iter_right L h s rfl).2 e (List.mem_of_getElem? he)
  · refine (iter_right L (h (n + 1)) s rfl).2 e (List.mem_map.2 ⟨n, by simp, ?_⟩)
    simpa using he

/-- C65 above a prefetching thread: for every schedule of the two threads and every sequence of calls (`next`, `get_state`,
`set_state` on the same or a new iterator, `start_prefetch`, `close`) for which an iterator without threads has outcomes. -/
theorem element_spec_thread_prefetch {N : Numpy} (L : N.Lawful) {p : Iter (Option (Elem N))} {x : Nat → Option (Py (Option (Elem N)))}
    {s : ElemSpec N} {parent : Py (ElemSpec N)} (h : StreamHasSpec p x parent) (hs : parentSpec parent = .ok s) {size : Nat} {prog : List TOp}
    {outs : List (Res (Option (Elem N)) ⊕ Int)} (hz : size = 0 → ∀ op, op ∈ prog → op ≠ .start ∧ op ≠ .close)
    (hideal : idealRun x noIdx 0 0 false false [] prog = some outs) {t : TPSys p} (hrun : TPRun p size (tpInit p prog) t)
    (e : Elem N) (he : .inl (.item (some e)) ∈ t.outs) : Conforms s e := by
  simp only [parentSpec] at hs
  subst hs
  have h1 := (thread_prefetch_invisible h.resumes.noIdx hz hideal hrun).1
  obtain ⟨n, hn⟩ := idealRun_items prog _ _ _ _ _ _ hideal _ (h1.subset he)
  exact h.conforms L hn

/-- C65 above a worker process, also one that may be killed at any point: for every schedule and every sequence of calls. -/
theorem element_spec_process_prefetch {N : Numpy} (L : N.Lawful) {p : Iter (Option (Elem N))} {x : Nat → Option (Py (Option (Elem N)))}
    {s : ElemSpec N} {parent : Py (ElemSpec N)} (h : StreamHasSpec p x parent) (hs : parentSpec parent = .ok s) {size : Nat}
    {keep crashes : Bool} {prog : List TOp} (hok : restoresOk 0 prog) {t : PPSys p}
    (hrun : PPRun p size keep crashes (ppInit p prog) t) (e : Elem N) (he : .inl (.item (some e)) ∈ t.outs) : Conforms s e := by
  simp only [parentSpec] at hs
  subst hs
  obtain ⟨done, v, _, hv⟩ := process_prefetch_exact_with_failures h.resumes.noIdx (callsOk_of_restoresOk hok) hrun
  obtain ⟨n, hn⟩ := viewRun_items hv _ he
  exact h.conforms L hn

/-! The hypotheses are met, e.g. by the batches of `fiveDicts`. -/

theorem fiveDicts_iter_spec : ∃ (it : Iter (Option (Elem tyNumpy))) (xs : List (Py (Option (Elem tyNumpy)))), IterHasSpec (N := tyNumpy) it xs true
    (.ok (.dict .dict (.cons "a" (.leaf ⟨[], .int 64⟩) (.cons "b" (.leaf ⟨[some 3], .int 32⟩) .nil)))) ∧ xs.length = 5 ∧
      ∃ e, xs[0]? = some (.ok (some e)) := by
  have h1 := IterHasSpec.mapDataset (N := tyNumpy) (ds := fiveDicts)
    (vs := (List.range 5).map (fun (k : Nat) => some (.dict .dict (.cons "a" (.leaf (pyInt k)) (.cons "b" (.leaf ⟨[3], .int 32, [(k : Int), k, k]⟩) .nil)))))
    4 2 false rfl (fun k hk => by
      rw [List.length_map, List.length_range] at hk
      match k, hk with
      | 0, _ => rfl
      | 1, _ => rfl
      | 2, _ => rfl
      | 3, _ => rfl
      | 4, _ => rfl) fiveDicts_spec
  exact ⟨_, _, h1, rfl, _, rfl⟩

/-- Reading one element, saving, restoring and reading again makes sense for both. -/
example : ∃ (p : Iter (Option (Elem tyNumpy))) (x : Nat → Option (Py (Option (Elem tyNumpy)))) (s : ElemSpec tyNumpy),
    StreamHasSpec p x (.ok s) ∧ (∃ e, idealRun x noIdx 0 0 false false [] [.save, .next, .restore 0, .next] =
      some [.inl (.item (some e)), .inl (.item (some e))]) ∧ restoresOk 0 [.save, .next, .restore 0, .next] := by
  obtain ⟨it, xs, h, _, e, he⟩ := fiveDicts_iter_spec
  refine ⟨it, _, _, Or.inl ⟨xs, h, rfl⟩, ⟨e, ?_⟩, by simp [restoresOk]⟩
  simp [idealRun, he]

end Grain
