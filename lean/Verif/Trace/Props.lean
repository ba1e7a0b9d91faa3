import Verif.Trace.Spec
import Mathlib.Logic.Function.Iterate
/-
C87: an exception reaches the user as it was raised; only frames of the library are left out of its traceback.
-/
namespace Grain

variable {V : Type}

/-! ### Which frames are left out -/

/-- C87: a file counts as internal exactly if `grain/_src` occurs in its path. -/
theorem internal_iff (file : List String) : includeParts file = false ↔ Internal file := by
  induction file with
  | nil => simp [includeParts, Internal]
  | cons x l ih =>
    cases l with
    | nil =>
      simp only [includeParts, Internal, Bool.true_eq_false, false_iff]
      rintro ⟨a, b, h⟩
      have := congrArg List.length h
      simp at this
      omega
    | cons y l =>
      rw [includeParts]
      by_cases hxy : x = "grain" ∧ y = "_src"
      · rw [if_pos hxy]
        refine ⟨fun _ => ⟨[], l, by simp [hxy.1, hxy.2]⟩, fun _ => rfl⟩
      · rw [if_neg hxy, ih]
        constructor
        · rintro ⟨a, b, h⟩; exact ⟨x :: a, b, by rw [h]; rfl⟩
        · rintro ⟨a, b, h⟩
          cases a with
          | nil =>
            simp only [List.nil_append, List.cons.injEq] at h
            exact absurd ⟨h.1, h.2.1⟩ hxy
          | cons z a =>
            simp only [List.cons_append, List.cons.injEq] at h
            exact ⟨a, b, h.2⟩

private theorem filterLoop_pos : ∀ (fs : List Frame) (i : Nat) (out : List Frame), 0 < i → filterLoop' fs i out = (fs.filter includeFrame).reverse ++ out := by
  intro fs
  induction fs with
  | nil => intro i out _; rfl
  | cons f fs ih =>
    intro i out hi
    have h0 : (i == 0) = false := by simpa using Nat.ne_of_gt hi
    rw [filterLoop', ih _ _ (by omega), h0, Bool.or_false]
    by_cases h : includeFrame f <;> simp [h]

/-- C87: a simplified traceback has the frames outside the library and the one that raised, in their order. -/
theorem filterTraceback_eq (tb : List Frame) : filterTraceback tb = simplified tb := by
  unfold filterTraceback simplified
  rcases List.eq_nil_or_concat tb with rfl | ⟨l, f, rfl⟩
  · rfl
  · rw [List.concat_eq_append, List.reverse_append, List.reverse_singleton, List.singleton_append, filterLoop', filterLoop_pos _ _ _ (by omega)]
    simp [userFrames]

/-- C87: no frame of user code is lost, none is added, the order stays. -/
theorem filterTraceback_keeps_user_frames (tb : List Frame) :
    userFrames (filterTraceback tb) = userFrames tb ∧ (filterTraceback tb).Sublist tb ∧ (filterTraceback tb).getLast? = tb.getLast? := by
  rw [filterTraceback_eq]
  unfold simplified
  rcases List.eq_nil_or_concat tb with rfl | ⟨l, f, rfl⟩
  · exact ⟨rfl, List.Sublist.slnil, rfl⟩
  · simp only [List.concat_eq_append, List.getLast?_append, List.getLast?_singleton, Option.some_or, List.dropLast_concat]
    refine ⟨?_, ?_, trivial⟩
    · simp [userFrames]
    · exact (List.filter_sublist).append (List.Sublist.refl _)

private theorem hiddenLoop_pos : ∀ (fs : List Frame) (i : Nat) (out : List (Frame × Bool)), 0 < i →
    hiddenLoop fs i out = (fs.map (fun f => (f, !includeFrame f))).reverse ++ out := by
  intro fs
  induction fs with
  | nil => intro i out _; rfl
  | cons f fs ih =>
    intro i out hi
    have h0 : (i != 0) = true := by simpa using Nat.ne_of_gt hi
    rw [hiddenLoop, ih _ _ (by omega), h0, Bool.and_true]
    simp

/-- C87: in IPython the same frames are marked as hidden that would be left out otherwise. -/
theorem hideFrames_eq (tb : List Frame) :
    (hideFrames tb).map (·.1) = tb ∧ ((hideFrames tb).filter (fun x => !x.2)).map (·.1) = simplified tb := by
  unfold hideFrames simplified
  rcases List.eq_nil_or_concat tb with rfl | ⟨l, f, rfl⟩
  · exact ⟨rfl, rfl⟩
  · rw [List.concat_eq_append, List.reverse_append, List.reverse_singleton, List.singleton_append, hiddenLoop, hiddenLoop_pos _ _ _ (by omega)]
    constructor
    · simp [Function.comp_def]
    · simp only [bne_self_eq_false, Bool.and_false, List.map_reverse, List.reverse_reverse, List.filter_append, List.map_append]
      rw [List.getLast?_append]
      simp [userFrames, List.filter_map, Function.comp_def]

/-! ### What arrives -/

private theorem reraise_same (mode : TbMode) (self : Frame) (outer : List Frame) (e : PyExc V) :
    (reraise mode self outer e).value = e.value ∧ (reraise mode self outer e).stopIteration = e.stopIteration ∧
      userFrames (reraise mode self outer e).tb = userFrames e.tb := by
  unfold reraise
  split
  · exact ⟨rfl, rfl, rfl⟩
  · cases mode
    · exact ⟨rfl, rfl, rfl⟩
    · exact ⟨rfl, rfl, rfl⟩
    · exact ⟨rfl, rfl, (filterTraceback_keeps_user_frames _).1⟩
    · exact ⟨rfl, rfl, (filterTraceback_keeps_user_frames _).1⟩

/-- C87: whatever calls an exception passes, with any number of filtering boundaries and in every mode, the same exception arrives, with all
frames of user code in their order. -/
theorem exception_arrives (mode : TbMode) : ∀ (stack : List Frame) (e : PyExc V),
    (unwind mode stack e).value = e.value ∧ (unwind mode stack e).stopIteration = e.stopIteration ∧
      userFrames (unwind mode stack e).tb = userFrames (stack.reverse ++ e.tb) := by
  intro stack
  induction stack with
  | nil => intro e; exact ⟨rfl, rfl, rfl⟩
  | cons f outer ih =>
    intro e
    rw [unwind]
    obtain ⟨h1, h2, h3⟩ := ih (if f.boundary then reraise mode f outer { e with tb := f :: e.tb } else { e with tb := f :: e.tb })
    obtain ⟨g1, g2, g3⟩ := reraise_same mode f outer ({ e with tb := f :: e.tb } : PyExc V)
    refine ⟨h1.trans ?_, h2.trans ?_, h3.trans ?_⟩
    · split
      · exact g1
      · rfl
    · split
      · exact g2
      · rfl
    · rw [userFrames, userFrames, List.filter_append, List.reverse_cons, List.append_assoc, List.filter_append]
      congr 1
      split
      · exact g3
      · rfl

/-- C87: a `StopIteration` and, with filtering off, every exception passes unchanged: nothing but the frames is added. -/
theorem exception_untouched (mode : TbMode) : ∀ (stack : List Frame) (e : PyExc V), e.stopIteration = true ∨ mode = .off →
    unwind mode stack e = { e with tb := stack.reverse ++ e.tb } := by
  intro stack
  induction stack with
  | nil => intro e _; rfl
  | cons f outer ih =>
    intro e h
    have hr : reraise mode f outer ({ e with tb := f :: e.tb } : PyExc V) = { e with tb := f :: e.tb } := by
      unfold reraise
      rw [if_pos]
      rcases h with h | h <;> simp [h]
    have hi : (if f.boundary then reraise mode f outer ({ e with tb := f :: e.tb } : PyExc V) else { e with tb := f :: e.tb }) = { e with tb := f :: e.tb } := by
      rw [hr, ite_self]
    rw [unwind]
    simp only [hi]
    refine (ih { e with tb := f :: e.tb } h).trans ?_
    simp

private theorem unwind_plain (mode : TbMode) : ∀ (stack : List Frame) (e : PyExc V), (∀ f ∈ stack, f.boundary = false) →
    unwind mode stack e = { e with tb := stack.reverse ++ e.tb } := by
  intro stack
  induction stack with
  | nil => intro e _; rfl
  | cons f outer ih =>
    intro e h
    rw [unwind, h f (List.mem_cons_self ..)]
    simp only [Bool.false_eq_true, if_false]
    rw [ih _ (fun g hg => h g (List.mem_cons_of_mem _ hg))]
    simp

private theorem unwind_append (mode : TbMode) (inner : List Frame) : ∀ (stack : List Frame) (e : PyExc V), (∃ f ∈ inner, f.boundary = true) →
    unwind mode (stack ++ inner) e = unwind mode inner { e with tb := stack.reverse ++ e.tb } := by
  intro stack
  induction stack with
  | nil => intro e _; rfl
  | cons f outer ih =>
    intro e h
    have hany : (outer ++ inner).any (·.boundary) = true := by
      obtain ⟨g, h1, h2⟩ := h
      exact List.any_eq_true.2 ⟨g, List.mem_append_right _ h1, h2⟩
    have hi : (if f.boundary then reraise mode f (outer ++ inner) ({ e with tb := f :: e.tb } : PyExc V) else { e with tb := f :: e.tb }) = { e with tb := f :: e.tb } := by
      have : reraise mode f (outer ++ inner) ({ e with tb := f :: e.tb } : PyExc V) = { e with tb := f :: e.tb } := by
        unfold reraise
        rw [if_pos (by simp only [hany]; simp)]
      rw [this, ite_self]
    rw [List.cons_append, unwind]
    simp only [hi]
    rw [ih _ h]
    simp

/-- C87: however deep boundaries are nested, the traceback is simplified once, at the outermost boundary: below it only the frames of user
code and the one that raised are left, above it every frame is there, and there is one note. -/
theorem simplified_once (below above : List Frame) (b : Frame) (hb : b.boundary = true) (ha : ∀ f ∈ above, f.boundary = false) (e : PyExc V)
    (hs : e.stopIteration = false) :
    unwind .quietRemove (below ++ b :: above) e =
      { e with tb := above.reverse ++ simplified (b :: below.reverse ++ e.tb), notes := e.notes + 1 } := by
  rw [unwind_append _ _ _ _ ⟨b, List.mem_cons_self .., hb⟩, unwind, if_pos hb]
  have hany : above.any (·.boundary) = false := by
    rw [List.any_eq_false]; intro f hf; simp [ha f hf]
  have hr : reraise .quietRemove b above ({ e with tb := b :: (below.reverse ++ e.tb) } : PyExc V) =
      { e with tb := simplified (b :: below.reverse ++ e.tb), notes := e.notes + 1 } := by
    unfold reraise
    rw [if_neg (by simp [hs, hany])]
    simp only [filterTraceback_eq, List.cons_append]
  simp only [hr]
  rw [unwind_plain _ _ _ ha]

/-- A traceback of the library's reader calling a user function. -/
def exampleFrames : List Frame :=
  [⟨["home", "user", "grain", "_src", "map.py"], "__next__", 300, false⟩, ⟨["site-packages", "grain", "_src", "traceback_util.py"], "wrapper", 363, true⟩,
    ⟨["home", "user", "train.py"], "main", 12, false⟩]

private theorem addCallStack_reached : ∀ (stack : List Frame) (out : List Frame),
    addCallStack stack true out = (userFrames (stack.takeWhile (fun f => f.name == "<module>"))).reverse ++ out := by
  intro stack
  induction stack with
  | nil => intro out; rfl
  | cons f fs ih =>
    intro out
    rw [addCallStack]
    by_cases h : f.name = "<module>"
    · rw [if_neg (by simp [h]), Bool.true_or, ih, List.takeWhile_cons_of_pos (by simp [h])]
      by_cases hi : includeFrame f = true <;> simp [userFrames, hi]
    · rw [if_pos (by simp [h]), List.takeWhile_cons_of_neg (by simp [h])]
      rfl

private theorem addCallStack_eq : ∀ (stack : List Frame) (out : List Frame),
    addCallStack stack false out = (userFrames (upToModule stack)).reverse ++ out := by
  intro stack
  induction stack with
  | nil => intro out; rfl
  | cons f fs ih =>
    intro out
    rw [addCallStack, if_neg (by simp), Bool.false_or]
    by_cases h : f.name = "<module>"
    · rw [beq_iff_eq.2 h, addCallStack_reached]
      unfold upToModule
      rw [List.takeWhile_cons_of_neg (by simp [h]), List.dropWhile_cons_of_neg (by simp [h]), List.takeWhile_cons_of_pos (by simp [h])]
      by_cases hi : includeFrame f = true <;> simp [userFrames, hi]
    · rw [beq_eq_false_iff_ne.2 h, ih]
      unfold upToModule
      rw [List.takeWhile_cons_of_pos (by simp [h]), List.dropWhile_cons_of_pos (by simp [h])]
      by_cases hi : includeFrame f = true <;> simp [userFrames, hi]

/-- C87: in mode `remove_frames` the complete traceback is kept in the cause, below the calls of user code that led to it. -/
theorem full_traceback_in_cause (below above : List Frame) (b : Frame) (hb : b.boundary = true) (ha : ∀ f ∈ above, f.boundary = false) (e : PyExc V)
    (hs : e.stopIteration = false) :
    unwind .removeFrames (below ++ b :: above) e =
      { e with tb := above.reverse ++ simplified (b :: below.reverse ++ e.tb)
               cause := some ((userFrames (upToModule (b :: above))).reverse ++ (b :: below.reverse ++ e.tb)) } := by
  have hl := addCallStack_eq (b :: above) (b :: (below.reverse ++ e.tb))
  rw [unwind_append _ _ _ _ ⟨b, List.mem_cons_self .., hb⟩, unwind, if_pos hb]
  have hany : above.any (·.boundary) = false := by
    rw [List.any_eq_false]; intro f hf; simp [ha f hf]
  have hr : reraise .removeFrames b above ({ e with tb := b :: (below.reverse ++ e.tb) } : PyExc V) =
      { e with tb := simplified (b :: below.reverse ++ e.tb)
               cause := some ((userFrames (upToModule (b :: above))).reverse ++ (b :: below.reverse ++ e.tb)) } := by
    unfold reraise
    rw [if_neg (by simp [hs, hany])]
    simp only [filterTraceback_eq, List.cons_append, hl]
  simp only [hr]
  rw [unwind_plain _ _ _ ha]

example : (unwind .removeFrames (exampleFrames ++ [⟨["home", "user", "train.py"], "<module>", 20, false⟩, ⟨["ipython.py"], "run", 9, false⟩])
      (⟨(), false, [], [], 0, none⟩ : PyExc Unit)).cause =
    some [⟨["home", "user", "train.py"], "<module>", 20, false⟩, ⟨["home", "user", "train.py"], "main", 12, false⟩,
      ⟨["site-packages", "grain", "_src", "traceback_util.py"], "wrapper", 363, true⟩,
      ⟨["home", "user", "grain", "_src", "map.py"], "__next__", 300, false⟩] := by decide

/-- C87: creating iterators any number of times wraps the method once. -/
theorem wrapped_once (n : Nat) : (wrapNext^[n + 1]) 0 = 1 := by
  induction n with
  | zero => rfl
  | succ n ih => rw [Function.iterate_succ_apply', ih]; rfl

/-! ### Worker processes -/

private theorem reconstructLoop_eq (isId : String → Bool) (compiles : List String → Nat → String → Bool) : ∀ (fs tb : List Frame),
    (∀ f ∈ fs, ∀ n, compiles f.file f.line n = true) →
    (reconstructLoop isId compiles fs tb).map (fun f => (f.file, f.line)) = (fs.map (fun f => (f.file, f.line))).reverse ++ tb.map (fun f => (f.file, f.line)) := by
  intro fs
  induction fs with
  | nil => intro tb _; rfl
  | cons f fs ih =>
    intro tb h
    rw [reconstructLoop]
    simp only [h f (List.mem_cons_self ..), if_true]
    rw [ih _ (fun g hg => h g (List.mem_cons_of_mem _ hg))]
    simp

/-- C87: the traceback of an exception of a worker process shows the same files and lines in the same order, if Python accepts the file
names. -/
theorem worker_traceback_places (isId : String → Bool) (compiles : List String → Nat → String → Bool) (tb : List Frame)
    (h : ∀ f ∈ tb, ∀ n, compiles f.file f.line n = true) :
    (reconstructTraceback isId compiles tb).map (fun f => (f.file, f.line)) = tb.map (fun f => (f.file, f.line)) := by
  unfold reconstructTraceback
  rw [reconstructLoop_eq _ _ _ _ (by simpa using h)]
  simp

private theorem reconstructLoop_sublist (isId : String → Bool) (compiles : List String → Nat → String → Bool) : ∀ (fs tb : List Frame),
    ∃ l, reconstructLoop isId compiles fs tb = l ++ tb ∧ (l.map (fun f => (f.file, f.line))).Sublist (fs.map (fun f => (f.file, f.line))).reverse := by
  intro fs
  induction fs with
  | nil => intro tb; exact ⟨[], rfl, List.Sublist.slnil⟩
  | cons f fs ih =>
    intro tb
    rw [reconstructLoop]
    by_cases hc : compiles f.file f.line (if isId (funcnameMap f.name) then funcnameMap f.name else "dummy_func") = true
    · obtain ⟨l, h1, h2⟩ := ih (({ file := f.file, name := if isId (funcnameMap f.name) then funcnameMap f.name else "dummy_func", line := f.line } : Frame) :: tb)
      refine ⟨l ++ [{ file := f.file, name := if isId (funcnameMap f.name) then funcnameMap f.name else "dummy_func", line := f.line }], ?_, ?_⟩
      · rw [if_pos hc, h1, List.append_assoc]; rfl
      · rw [List.map_append, List.map_cons, List.map_cons, List.reverse_cons]
        exact h2.append (List.Sublist.refl _)
    · obtain ⟨l, h1, h2⟩ := ih tb
      refine ⟨l, ?_, ?_⟩
      · rw [if_neg hc]; exact h1
      · rw [List.map_cons, List.reverse_cons]
        exact h2.trans (List.sublist_append_left _ _)

/-- C87: in any case no frame is invented and the order stays. -/
theorem worker_traceback_sublist (isId : String → Bool) (compiles : List String → Nat → String → Bool) (tb : List Frame) :
    ((reconstructTraceback isId compiles tb).map (fun f => (f.file, f.line))).Sublist (tb.map (fun f => (f.file, f.line))) := by
  obtain ⟨l, h1, h2⟩ := reconstructLoop_sublist isId compiles tb.reverse []
  unfold reconstructTraceback
  rw [h1]
  simpa using h2

/-- C87: functions with an ordinary name keep it. -/
theorem worker_traceback_names (isId : String → Bool) (compiles : List String → Nat → String → Bool) (tb : List Frame)
    (h : ∀ f ∈ tb, isId f.name = true ∧ compiles f.file f.line f.name = true ∧ funcnameMap f.name = f.name ∧ f.boundary = false) :
    reconstructTraceback isId compiles tb = tb := by
  have : ∀ (fs tb : List Frame), (∀ f ∈ fs, isId f.name = true ∧ compiles f.file f.line f.name = true ∧ funcnameMap f.name = f.name ∧ f.boundary = false) →
      reconstructLoop isId compiles fs tb = fs.reverse ++ tb := by
    intro fs
    induction fs with
    | nil => intro tb _; rfl
    | cons f fs ih =>
      intro tb h
      obtain ⟨h1, h2, h3, h4⟩ := h f (List.mem_cons_self ..)
      rw [reconstructLoop]
      simp only [h3, h1, if_true, h2]
      rw [ih _ (fun g hg => h g (List.mem_cons_of_mem _ hg))]
      rcases f with ⟨a, b, c, d⟩
      simp only at h4
      subst h4
      simp
  unfold reconstructTraceback
  rw [this _ _ (by simpa using h)]
  simp

/-! ### Threads -/

/-- Each thread has its own outermost boundary: an exception that passes a boundary in a prefetching thread and another one in the thread that
reads is simplified twice and has the note twice. -/
theorem note_per_thread (b : Frame) (hb : b.boundary = true) (e : PyExc V) (hs : e.stopIteration = false) :
    (unwind .quietRemove [b] (unwind .quietRemove [b] e)).notes = e.notes + 2 := by
  have h := simplified_once [] [] b hb (by simp) e hs
  rw [List.nil_append] at h
  have h2 := simplified_once [] [] b hb (by simp) (unwind .quietRemove [b] e) (by rw [h]; exact hs)
  rw [List.nil_append] at h2
  rw [h2, h]

/-! ### The hypotheses are met -/

example : includeParts ["home", "user", "train.py"] = true ∧ includeParts ["grain", "grain", "_src", "x.py"] = false ∧ includeParts ["grain", "x", "_src"] = true := by
  decide

example : (unwind .quietRemove (⟨["home", "user", "train.py"], "f", 3, false⟩ :: exampleFrames) (⟨(), false, [], [], 0, none⟩ : PyExc Unit)).tb =
    [⟨["home", "user", "train.py"], "main", 12, false⟩, ⟨["home", "user", "train.py"], "f", 3, false⟩] := by decide

example : ∃ below b above, ⟨["home", "user", "train.py"], "f", 3, false⟩ :: exampleFrames = below ++ b :: above ∧ b.boundary = true ∧
    ∀ f ∈ above, f.boundary = false :=
  ⟨[⟨["home", "user", "train.py"], "f", 3, false⟩, ⟨["home", "user", "grain", "_src", "map.py"], "__next__", 300, false⟩],
    ⟨["site-packages", "grain", "_src", "traceback_util.py"], "wrapper", 363, true⟩, [⟨["home", "user", "train.py"], "main", 12, false⟩], rfl, rfl, by decide⟩

example : reconstructTraceback (fun s => s ≠ "<x>") (fun _ _ _ => true) [⟨["a.py"], "main", 3, false⟩, ⟨["b.py"], "<lambda>", 4, false⟩, ⟨["b.py"], "<x>", 5, false⟩] =
    [⟨["a.py"], "main", 3, false⟩, ⟨["b.py"], "lambda_func", 4, false⟩, ⟨["b.py"], "dummy_func", 5, false⟩] := by decide

end Grain
