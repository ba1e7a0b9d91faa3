import Verif.Shm.Model
import Verif.Tree.Props
namespace Grain

/-- `f` over a list, in order. -/
def listS (f : α → ShmM β) : List α → ShmM (List β)
  | [] => fun h => (h, .ok [])
  | a :: l => fun h =>
    match f a h with
    | (h, .error e) => (h, .error e)
    | (h, .ok b) =>
      match listS f l h with
      | (h, .ok bs) => (h, .ok (b :: bs))
      | (h, .error e) => (h, .error e)

theorem listS_append (f : α → ShmM β) (l m : List α) (h : ShmHeap) :
    listS f (l ++ m) h = match listS f l h with
      | (h, .error e) => (h, .error e)
      | (h, .ok bs) => match listS f m h with
        | (h, .ok cs) => (h, .ok (bs ++ cs))
        | (h, .error e) => (h, .error e) := by
  induction l generalizing h with
  | nil =>
    simp only [List.nil_append, listS]
    rcases listS f m h with ⟨h', _ | cs⟩ <;> rfl
  | cons a l ih =>
    simp only [List.cons_append, listS]
    rcases f a h with ⟨h1, _ | b⟩
    · rfl
    · dsimp only
      rw [ih]
      rcases listS f l h1 with ⟨h2, _ | bs⟩
      · rfl
      · dsimp only
        rcases listS f m h2 with ⟨h3, _ | cs⟩ <;> rfl

mutual
theorem Tree.mapS_list (f : α → ShmM β) : ∀ (t : Tree α) (h : ShmHeap),
    match listS f t.flatten h with
    | (h', .ok l) => ∃ u, t.mapS f h = (h', .ok u) ∧ u.SameShape t ∧ u.flatten = l
    | (h', .error e) => t.mapS f h = (h', .error e)
  | .leaf a, h => by
    simp only [Tree.flatten, listS, Tree.mapS]
    rcases f a h with ⟨h1, _ | b⟩
    · rfl
    · exact ⟨_, rfl, rfl, rfl⟩
  | .seq k ts, h => by
    have := TreeList.mapS_list f ts h
    simp only [Tree.flatten, Tree.mapS]
    rcases hl : listS f ts.flatten h with ⟨h1, e | l⟩ <;> rw [hl] at this <;> dsimp only at this ⊢
    · rw [this]
    · obtain ⟨u, e1, e2, e3⟩ := this
      rw [e1]
      exact ⟨_, rfl, by simp only [Tree.SameShape, Tree.map] at e2 ⊢; rw [e2], e3⟩
  | .dict k kvs, h => by
    have := TreeDict.mapS_list f kvs h
    simp only [Tree.flatten, Tree.mapS]
    rcases hl : listS f kvs.flatten h with ⟨h1, e | l⟩ <;> rw [hl] at this <;> dsimp only at this ⊢
    · rw [this]
    · obtain ⟨u, e1, e2, e3⟩ := this
      rw [e1]
      exact ⟨_, rfl, by simp only [Tree.SameShape, Tree.map] at e2 ⊢; rw [e2], e3⟩
theorem TreeList.mapS_list (f : α → ShmM β) : ∀ (t : TreeList α) (h : ShmHeap),
    match listS f t.flatten h with
    | (h', .ok l) => ∃ u, t.mapS f h = (h', .ok u) ∧ u.map (fun _ => ()) = t.map (fun _ => ()) ∧ u.flatten = l
    | (h', .error e) => t.mapS f h = (h', .error e)
  | .nil, h => ⟨_, rfl, rfl, rfl⟩
  | .cons t ts, h => by
    have h1 := Tree.mapS_list f t h
    simp only [TreeList.flatten, TreeList.mapS, listS_append]
    rcases hl : listS f t.flatten h with ⟨g, e | l⟩ <;> rw [hl] at h1 <;> dsimp only at h1 ⊢
    · rw [h1]
    · obtain ⟨u, e1, e2, e3⟩ := h1
      rw [e1]
      have h2 := TreeList.mapS_list f ts g
      dsimp only
      rcases hl' : listS f ts.flatten g with ⟨g', e | m⟩ <;> rw [hl'] at h2 <;> dsimp only at h2 ⊢
      · rw [h2]
      · obtain ⟨us, f1, f2, f3⟩ := h2
        rw [f1]
        refine ⟨_, rfl, ?_, ?_⟩
        · simp only [TreeList.map, f2]; rw [show u.map (fun _ => ()) = t.map (fun _ => ()) from e2]
        · simp only [TreeList.flatten, e3, f3]
theorem TreeDict.mapS_list (f : α → ShmM β) : ∀ (t : TreeDict α) (h : ShmHeap),
    match listS f t.flatten h with
    | (h', .ok l) => ∃ u, t.mapS f h = (h', .ok u) ∧ u.map (fun _ => ()) = t.map (fun _ => ()) ∧ u.flatten = l
    | (h', .error e) => t.mapS f h = (h', .error e)
  | .nil, h => ⟨_, rfl, rfl, rfl⟩
  | .cons key t ts, h => by
    have h1 := Tree.mapS_list f t h
    simp only [TreeDict.flatten, TreeDict.mapS, listS_append]
    rcases hl : listS f t.flatten h with ⟨g, e | l⟩ <;> rw [hl] at h1 <;> dsimp only at h1 ⊢
    · rw [h1]
    · obtain ⟨u, e1, e2, e3⟩ := h1
      rw [e1]
      have h2 := TreeDict.mapS_list f ts g
      dsimp only
      rcases hl' : listS f ts.flatten g with ⟨g', e | m⟩ <;> rw [hl'] at h2 <;> dsimp only at h2 ⊢
      · rw [h2]
      · obtain ⟨us, f1, f2, f3⟩ := h2
        rw [f1]
        refine ⟨_, rfl, ?_, ?_⟩
        · simp only [TreeDict.map, f2]; rw [show u.map (fun _ => ()) = t.map (fun _ => ()) from e2]
        · simp only [TreeDict.flatten, e3, f3]
end

theorem Tree.mapS_ok {f : α → ShmM β} {t : Tree α} {h h' : ShmHeap} {l : List β} (hl : listS f t.flatten h = (h', .ok l)) :
    ∃ u, t.mapS f h = (h', .ok u) ∧ u.SameShape t ∧ u.flatten = l := by
  have := Tree.mapS_list f t h
  rw [hl] at this
  exact this

theorem Tree.mapS_error {f : α → ShmM β} {t : Tree α} {h h' : ShmHeap} {e : ShmErr} (hl : listS f t.flatten h = (h', .error e)) :
    t.mapS f h = (h', .error e) := by
  have := Tree.mapS_list f t h
  rw [hl] at this
  exact this

end Grain
