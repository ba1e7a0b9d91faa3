import Verif.Json.SpecAsync
import Verif.Json.PropsStates
/-
Property C81: checkpoints written in the background.
-/
namespace Grain

/-- The running program against the ideal one. -/
structure AsyncRel (j : JIter α) (At : j.S → Nat → Prop) (Ck : Json → Nat → Prop) (pos : Nat) (saved : Nat → Option Nat)
    (done : Nat → Bool) (tasks : List Nat) (s : AsyncSys j.S) : Prop where
  at_ : At s.it pos
  dirs : s.tasks.map (·.dir) = tasks
  nodup : tasks.Nodup
  task : ∀ t ∈ s.tasks, ∃ p ms, saved t.dir = some p ∧ t.text = jsonDumps (.obj ms) ∧ Ck (.obj ms) p ∧
    (∀ w, t.written = some w → w ≤ t.text.length) ∧ (done t.dir = true → t.written = some t.text.length)
  file : ∀ d x, s.files d = some x → ∃ p ms q, saved d = some p ∧ Ck (.obj ms) p ∧ x ++ q = jsonDumps (.obj ms) ∧
    (done d = true → q = [])
  done_file : ∀ d, done d = true → s.files d ≠ none
  done_saved : ∀ d, done d = true → saved d ≠ none

theorem asyncRun_ok {j : JIter α} {xs : List (Py α)} {ended : Bool} {At : j.S → Nat → Prop} {Ck : Json → Nat → Prop}
    (h : Sim j.iter xs ended At Ck) (hdict : ∀ s, ∃ ms, (j.get s).2 = .obj ms) : ∀ (es : List AsyncEv) (s : AsyncSys j.S) (pos : Nat)
    (saved : Nat → Option Nat) (done : Nat → Bool) (tasks : List Nat), AsyncRel j At Ck pos saved done tasks s →
    Ev (fun F => AsyncOk xs ended pos saved done tasks es (asyncRun j F s es)) := by
  intro es
  induction es with
  | nil => intro s pos saved done tasks _; exact Ev.of_forall (fun F => rfl)
  | cons e es ih =>
    intro s pos saved done tasks hr
    cases e with
    | next =>
      cases ho : outcome xs ended pos with
      | none => exact Ev.of_forall (fun F => by simp only [AsyncOk, ho])
      | some r =>
        have hb := h.bound hr.at_
        have key : ∃ it', Ev (fun F => j.next F s.it = some (it', r)) ∧ At it' (min xs.length (pos + 1)) := by
          cases hx : xs[pos]? with
          | some q =>
            rw [outcome_lt hx] at ho
            cases ho
            obtain ⟨it', h1, h2⟩ := h.next_item hr.at_ hx
            have hlt := getElem?_lt hx
            exact ⟨it', h1, by rw [Nat.min_eq_right (by omega)]; exact h2⟩
          | none =>
            have hge : xs.length ≤ pos := by
              by_contra hc
              rw [List.getElem?_eq_getElem (by omega)] at hx
              cases hx
            have hpos : pos = xs.length := by omega
            subst hpos
            unfold outcome at ho
            rw [hx] at ho
            cases ended with
            | false => simp at ho
            | true =>
              simp at ho
              subst ho
              obtain ⟨it', h1, h2⟩ := h.next_stop hr.at_ rfl
              exact ⟨it', h1, by rw [Nat.min_eq_left (by omega)]; exact h2⟩
        obtain ⟨it', h1, h2⟩ := key
        have h3 := ih { s with it := it' } (min xs.length (pos + 1)) saved done tasks
          ⟨h2, hr.dirs, hr.nodup, hr.task, hr.file, hr.done_file, hr.done_saved⟩
        refine h1.mono₂ h3 ?_
        intro F e1 e2
        simp only [AsyncOk, ho, asyncRun, e1]
        exact ⟨_, rfl, e2⟩
    | save d =>
      by_cases hd : saved d = none
      · obtain ⟨ms, hms⟩ := hdict s.it
        have hg := h.get hr.at_
        have hck : Ck (.obj ms) pos := by
          have := hg.2
          rw [← hms]
          exact this
        have hnew : ∀ t ∈ s.tasks, t.dir ≠ d := by
          rintro t ht rfl
          obtain ⟨p, _, hp, _⟩ := hr.task t ht
          rw [hd] at hp
          cases hp
        have hdn : done d = false := by
          cases hdd : done d with
          | false => rfl
          | true => exact absurd hd (hr.done_saved d hdd)
        have h3 := ih { s with it := (j.get s.it).1, tasks := s.tasks ++ [⟨d, jsonDumps (j.get s.it).2, none⟩] } pos
          (Function.update saved d (some pos)) done (tasks ++ [d]) (by
          refine ⟨hg.1, by simp [hr.dirs], ?_, ?_, ?_, hr.done_file, ?_⟩
          · rw [List.nodup_append]
            refine ⟨hr.nodup, by simp, ?_⟩
            intro a ha b hb
            simp only [List.mem_singleton] at hb
            subst hb
            rw [← hr.dirs, List.mem_map] at ha
            obtain ⟨t, ht, rfl⟩ := ha
            exact hnew t ht
          · intro t ht
            rw [List.mem_append, List.mem_singleton] at ht
            rcases ht with ht | rfl
            · obtain ⟨p, ms', q1, q2⟩ := hr.task t ht
              exact ⟨p, ms', by rw [Function.update_of_ne (hnew t ht)]; exact q1, q2⟩
            · refine ⟨pos, ms, by simp, by rw [hms], hck, by simp, ?_⟩
              intro hc
              dsimp only at hc
              rw [hdn] at hc
              cases hc
          · intro d' x hx
            obtain ⟨p, ms', q, q1, q2⟩ := hr.file d' x hx
            refine ⟨p, ms', q, ?_, q2⟩
            rw [Function.update_of_ne]
            · exact q1
            · rintro rfl
              rw [hd] at q1
              cases q1
          · intro d' hd'
            by_cases he : d' = d
            · subst he; simp
            · rw [Function.update_of_ne he]; exact hr.done_saved d' hd')
        refine h3.mono ?_
        intro F e2
        simp only [AsyncOk, asyncRun]
        exact fun _ => e2
      · exact Ev.of_forall (fun F => by simp only [AsyncOk]; exact fun hc => absurd hc hd)
    | «open» i =>
      simp only [AsyncOk, asyncRun]
      cases ht : s.tasks[i]? with
      | none => exact ih s pos saved done tasks hr
      | some t =>
        obtain ⟨d, x, w⟩ := t
        cases w with
        | some w => exact ih s pos saved done tasks hr
        | none =>
          have hmem := List.mem_of_getElem? ht
          obtain ⟨p, ms, q1, q2, q3, q4, q5⟩ := hr.task _ hmem
          dsimp only at q1 q2 q3 q4 q5
          have hdn : done d = false := by
            cases hdd : done d with
            | false => rfl
            | true => have := q5 hdd; cases this
          refine ih _ pos saved done tasks ⟨hr.at_, ?_, hr.nodup, ?_, ?_, ?_, hr.done_saved⟩
          · rw [← hr.dirs, List.map_set]
            refine List.ext_getElem? (fun k => ?_)
            rw [List.getElem?_set]
            split
            · rename_i hik
              subst hik
              rw [List.getElem?_map, ht]
              simp only [Option.map_some, List.length_map, getElem?_lt ht, if_true]
            · rfl
          · intro t hmt
            rcases List.mem_or_eq_of_mem_set hmt with hmt | rfl
            · exact hr.task t hmt
            · exact ⟨p, ms, q1, q2, q3, fun w hw => by cases hw; exact Nat.zero_le _, fun hc => by dsimp only at hc; rw [hdn] at hc; cases hc⟩
          · intro d' y hy
            dsimp only at hy
            by_cases he : d' = d
            · subst he
              rw [Function.update_self] at hy
              cases hy
              exact ⟨p, ms, _, q1, q3, rfl, fun hc => by rw [hdn] at hc; cases hc⟩
            · rw [Function.update_of_ne he] at hy
              exact hr.file d' y hy
          · intro d' hd'
            dsimp only
            by_cases he : d' = d
            · subst he; simp
            · rw [Function.update_of_ne he]; exact hr.done_file d' hd'
    | write i k =>
      simp only [AsyncOk, asyncRun]
      cases ht : s.tasks[i]? with
      | none => exact ih s pos saved done tasks hr
      | some t =>
        obtain ⟨d, x, w⟩ := t
        cases w with
        | none => exact ih s pos saved done tasks hr
        | some w =>
          have hmem := List.mem_of_getElem? ht
          obtain ⟨p, ms, q1, q2, q3, q4, q5⟩ := hr.task _ hmem
          dsimp only at q1 q2 q3 q4 q5
          refine ih _ pos saved done tasks ⟨hr.at_, ?_, hr.nodup, ?_, ?_, ?_, hr.done_saved⟩
          · rw [← hr.dirs, List.map_set]
            refine List.ext_getElem? (fun k => ?_)
            rw [List.getElem?_set]
            split
            · rename_i hik
              subst hik
              rw [List.getElem?_map, ht]
              simp only [Option.map_some, List.length_map, getElem?_lt ht, if_true]
            · rfl
          · intro t hmt
            rcases List.mem_or_eq_of_mem_set hmt with hmt | rfl
            · exact hr.task t hmt
            · refine ⟨p, ms, q1, q2, q3, fun w hw => by cases hw; exact Nat.min_le_right _ _, fun hc => ?_⟩
              have := q5 hc
              cases this
              dsimp only
              rw [Nat.min_eq_right (by omega)]
          · intro d' y hy
            dsimp only at hy
            by_cases he : d' = d
            · subst he
              rw [Function.update_self] at hy
              cases hy
              refine ⟨p, ms, x.drop (w + k), q1, q3, by rw [List.take_append_drop, q2], fun hc => ?_⟩
              have := q5 hc
              cases this
              exact List.drop_eq_nil_of_le (by omega)
            · rw [Function.update_of_ne he] at hy
              exact hr.file d' y hy
          · intro d' hd'
            dsimp only
            by_cases he : d' = d
            · subst he; simp
            · rw [Function.update_of_ne he]; exact hr.done_file d' hd'
    | finish i =>
      simp only [AsyncOk, asyncRun]
      have hti : tasks[i]? = (s.tasks[i]?).map (·.dir) := by rw [← hr.dirs, List.getElem?_map]
      cases ht : s.tasks[i]? with
      | none =>
        rw [ht] at hti
        simp only [hti, Option.map_none]
        exact ih s pos saved done tasks hr
      | some t =>
        rw [ht] at hti
        simp only [hti, Option.map_some]
        obtain ⟨d, x, w⟩ := t
        have hmem := List.mem_of_getElem? ht
        obtain ⟨p, ms, q1, q2, q3, q4, q5⟩ := hr.task _ hmem
        dsimp only at q1 q2 q3 q4 q5 hti ⊢
        refine ih _ pos saved (Function.update done d true) tasks ⟨hr.at_, ?_, hr.nodup, ?_, ?_, ?_, ?_⟩
        · rw [← hr.dirs, List.map_set]
          refine List.ext_getElem? (fun k => ?_)
          rw [List.getElem?_set]
          split
          · rename_i hik
            subst hik
            rw [List.getElem?_map, ht]
            simp only [Option.map_some, List.length_map, getElem?_lt ht, if_true]
          · rfl
        · intro t hmt
          dsimp only at hmt
          by_cases htd : t.dir = d
          · obtain ⟨k, hk, rfl⟩ := List.getElem_of_mem hmt
            have hki : k = i := by
              by_contra hne
              rw [List.length_set] at hk
              have e1 : tasks[k]? = some d := by
                rw [← hr.dirs, List.getElem?_map, List.getElem?_eq_getElem hk]
                rw [List.getElem_set_ne (by omega)] at htd
                rw [Option.map_some, htd]
              have hl1 := getElem?_lt e1
              have hl2 := getElem?_lt hti
              rw [List.getElem?_eq_getElem hl1] at e1
              rw [List.getElem?_eq_getElem hl2] at hti
              have := (List.Nodup.getElem_inj_iff hr.nodup).1 ((Option.some.inj e1).trans (Option.some.inj hti).symm)
              exact hne this
            subst hki
            rw [List.getElem_set_self]
            exact ⟨p, ms, q1, q2, q3, fun w hw => by cases hw; exact Nat.le_refl _, fun _ => rfl⟩
          · have hmt' : t ∈ s.tasks := by
              rcases List.mem_or_eq_of_mem_set hmt with hmt | rfl
              · exact hmt
              · exact absurd rfl htd
            obtain ⟨p', ms', r1, r2, r3, r4, r5⟩ := hr.task t hmt'
            refine ⟨p', ms', r1, r2, r3, r4, ?_⟩
            rw [Function.update_of_ne htd]
            exact r5
        · intro d' y hy
          dsimp only at hy
          by_cases he : d' = d
          · subst he
            rw [Function.update_self] at hy
            cases hy
            exact ⟨p, ms, [], q1, q3, by rw [List.append_nil, q2], fun _ => rfl⟩
          · rw [Function.update_of_ne he] at hy
            rw [Function.update_of_ne he]
            exact hr.file d' y hy
        · intro d' hd'
          dsimp only
          by_cases he : d' = d
          · subst he; simp
          · rw [Function.update_of_ne he] at hd' ⊢
            exact hr.done_file d' hd'
        · intro d' hd'
          by_cases he : d' = d
          · subst he; rw [q1]; simp
          · rw [Function.update_of_ne he] at hd'
            exact hr.done_saved d' hd'
    | crash =>
      simp only [AsyncOk, asyncRun]
      exact ih _ 0 saved done [] ⟨h.init, rfl, List.nodup_nil, fun t ht => (by cases ht), hr.file, hr.done_file, hr.done_saved⟩
    | load d =>
      cases hs : saved d with
      | none =>
        have hf : s.files d = none := by
          cases hf : s.files d with
          | none => rfl
          | some x =>
            obtain ⟨p, _, _, hp, _⟩ := hr.file d x hf
            rw [hs] at hp
            cases hp
        refine (ih s pos saved done tasks hr).mono ?_
        intro F e2
        simp only [AsyncOk, asyncRun, hs, hf]
        exact ⟨_, rfl, e2⟩
      | some p =>
        by_cases hp : p < xs.length ∨ ended = true
        swap
        · exact Ev.of_forall (fun F => by simp only [AsyncOk, hs]; exact fun hc => absurd hc hp)
        have hrefused : s.files d = none ∨ (∃ x, s.files d = some x ∧ jsonLoads x = none) → done d = false →
            Ev (fun F => AsyncOk xs ended pos saved done tasks (.load d :: es) (asyncRun j F s (.load d :: es))) := by
          intro hx hdn
          refine (ih s pos saved done tasks hr).mono ?_
          intro F e2
          simp only [AsyncOk, hs]
          refine fun _ => Or.inr ⟨hdn, asyncRun j F s es, ?_, e2⟩
          rcases hx with hx | ⟨x, hx, hl⟩
          · simp only [asyncRun, hx]
          · simp only [asyncRun, hx, JIter.text, hl]
        cases hf : s.files d with
        | none =>
          refine hrefused (Or.inl hf) ?_
          cases hdd : done d with
          | false => rfl
          | true => exact absurd hf (hr.done_file d hdd)
        | some x =>
          obtain ⟨p', ms, q, r1, r2, r3, r4⟩ := hr.file d x hf
          rw [hs] at r1
          cases r1
          by_cases hq : q = []
          · subst hq
            rw [List.append_nil] at r3
            subst r3
            obtain ⟨it', h1, h2⟩ := h.set hr.at_ r2 hp
            have h3 := ih { s with it := it' } p saved done tasks
              ⟨h2, hr.dirs, hr.nodup, hr.task, hr.file, hr.done_file, hr.done_saved⟩
            refine h1.mono₂ h3 ?_
            intro F e1 e2
            simp only [AsyncOk, hs]
            refine fun _ => Or.inl ⟨_, ?_, e2⟩
            have e1' : j.set F s.it (.obj ms) = some (it', none) := e1
            simp only [asyncRun, hf, JIter.text, json_round_trip, e1']
          · refine hrefused (Or.inr ⟨x, hf, json_truncated_refused ms x q r3 hq⟩) ?_
            cases hdd : done d with
            | false => rfl
            | true => exact absurd (r4 hdd) hq

/-- C81: for every pipeline and every history of calls of `next`, saves in the background, crashes and loads, with the
background work interleaved in any way and cut off at any character: a load either continues exactly where the iterator was
when `save` was called (not where it was when the file was written), or raises and leaves the iterator as it was; it
does not raise once the coroutine ran to its end. -/
theorem async_checkpoint {α : Type} {j : JIter α} {xs : List (Py α)} {ended : Bool} (h : JPipe j xs ended) (es : List AsyncEv) :
    Ev (fun F => AsyncOk xs ended 0 (fun _ => none) (fun _ => false) [] es (asyncRun j F (asyncInit j) es)) := by
  obtain ⟨At, Ck, hs⟩ := h.resumes
  exact asyncRun_ok hs (pipeline_state_dict h) es _ 0 _ _ [] ⟨hs.init, rfl, List.nodup_nil, fun t ht => (by cases ht),
    fun d x hx => (by cases hx), fun d hd => (by cases hd), fun d hd => (by cases hd)⟩

/-- A history: two elements, a save, a third element, the coroutine writes five characters, the process is lost, the load is
refused. -/
example : asyncRun (mapJson (fun x : Nat => .ok (some (x + 1))) (prefetchJson 1 1 false none ⟨3, fun i => .ok (some i.toNat), fun is => .ok (is.map (fun i => some i.toNat))⟩))
    9 (asyncInit _) [.next, .next, .save 7, .next, .open 0, .write 0 5, .crash, .next, .load 7, .next] =
    [.out (.item (some 1)), .out (.item (some 2)), .out (.item (some 3)), .out (.item (some 1)), .refused, .out (.item (some 2))] := by
  decide +kernel

/-- The same history, but the coroutine ran to its end. -/
example : asyncRun (mapJson (fun x : Nat => .ok (some (x + 1))) (prefetchJson 1 1 false none ⟨3, fun i => .ok (some i.toNat), fun is => .ok (is.map (fun i => some i.toNat))⟩))
    9 (asyncInit _) [.next, .next, .save 7, .next, .open 0, .write 0 5, .finish 0, .crash, .next, .load 7, .next, .next] =
    [.out (.item (some 1)), .out (.item (some 2)), .out (.item (some 3)), .out (.item (some 1)), .loaded, .out (.item (some 3)), .out .stop] := by
  decide +kernel

end Grain
