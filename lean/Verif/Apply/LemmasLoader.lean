import Verif.Apply.Lemmas
import Verif.Loader.PropsLegacy
/-
Lemmas for C88: the records of a data loader and the elements of a dataset.
-/
namespace Grain

theorem mapM_rel {γ α β δ : Type} {f : γ → Option α} {g : γ → Option β} {φ : α → δ} {ψ : β → δ} : ∀ (l : List γ) (ys : List β),
    (∀ a ∈ l, ∀ y, g a = some y → ∃ x, f a = some x ∧ φ x = ψ y) → l.mapM g = some ys → ∃ xs, l.mapM f = some xs ∧ xs.map φ = ys.map ψ := by
  intro l
  induction l with
  | nil => intro ys _ h; cases h; exact ⟨[], rfl, rfl⟩
  | cons a l ih =>
    intro ys hfg h
    rw [List.mapM_cons] at h
    simp only [Option.bind_eq_bind, Option.bind_eq_some_iff, Option.pure_def, Option.some.injEq] at h
    obtain ⟨v, hv, zs, hz, rfl⟩ := h
    obtain ⟨x, h1, h2⟩ := hfg a (by simp) v hv
    obtain ⟨xs, h3, h4⟩ := ih zs (fun b hb => hfg b (by simp [hb])) hz
    refine ⟨x :: xs, ?_, by simp [h2, h4]⟩
    rw [List.mapM_cons, h1, h3]
    rfl

theorem mapM_data {α : Type} {g : Option V → Option α} {rs : List (Rec (Option V))} {xs : List V} (h : rs.map (·.data) = xs.map some) :
    xs.mapM (fun v => g (some v)) = rs.mapM (fun r => g r.data) := by
  have e1 : (xs.map some).mapM g = xs.mapM (fun v => g (some v)) := by rw [List.mapM_map]; rfl
  have e2 : (rs.map (·.data)).mapM g = rs.mapM (fun r => g r.data) := by rw [List.mapM_map]; rfl
  rw [← e1, ← h, e2]

theorem group_map (f : α → β) (xs : List α) (b i : Nat) : group (xs.map f) b i = (group xs b i).map f := by
  unfold group
  rw [List.map_take, List.map_drop]

theorem group_ne_nil {xs : List α} {b i : Nat} {drop : Bool} (hb : 0 < b) (hi : i < batchCount xs.length b drop) : group xs b i ≠ [] := by
  unfold group
  intro h
  rw [List.take_eq_nil_iff] at h
  rcases h with h | h
  · omega
  · rw [List.drop_eq_nil_iff] at h
    unfold batchCount at hi
    have h1 : (i + 1) * b ≤ xs.length + b - 1 := by
      split at hi
      · have := (Nat.le_div_iff_mul_le hb).1 (Nat.succ_le_of_lt hi); simp only [Nat.succ_eq_add_one] at this; omega
      · exact (Nat.le_div_iff_mul_le hb).1 (Nat.succ_le_of_lt hi)
    rw [Nat.add_mul, Nat.one_mul] at h1
    omega

/-- A transformation of a data loader does to the data of the records what the dataset method does to the elements. -/
theorem loader_run {rng : Nat → Option Int} {c : Call V} (hp : c.plain = true) (hv : c.valid) : ∃ op, c.obj.loaderOp = .ok op ∧ op.valid ∧
    (op.kept = none ↔ c.obj.flatMap.isSome = true) ∧
    ∀ {rs : List (Rec (Option V))} {xs ys : List V}, rs.map (·.data) = xs.map some → c.run rng xs = some ys →
      ∃ rs', op.run rs = some rs' ∧ rs'.map (·.data) = ys.map some := by
  cases c with
  | randomMap f => cases hp
  | mapWithIndex f => cases hp
  | map f =>
    refine ⟨_, rfl, trivial, by simp [NOp.kept, Call.obj], ?_⟩
    intro rs xs ys hd hr
    simp only [Call.run] at hr
    rw [mapM_data (g := fun d => someVal (f d)) hd] at hr
    refine mapM_rel rs ys ?_ hr
    intro r _ y hy
    rw [someVal_some hy]
    exact ⟨_, rfl, rfl⟩
  | batch b drop fn =>
    refine ⟨_, rfl, hv, by simp [NOp.kept, Call.obj], ?_⟩
    intro rs xs ys hd hr
    have hlen : rs.length = xs.length := by have := congrArg List.length hd; simpa using this
    simp only [Call.run, ← hlen] at hr
    refine mapM_rel _ ys ?_ hr
    intro i hi y hy
    rw [List.mem_range] at hi
    have hg : (group xs b i).map some = (group rs b i).map (·.data) := by rw [← group_map, ← group_map, hd]
    rw [hg] at hy
    have hne := group_ne_nil (drop := drop) hv hi
    cases hl : (group rs b i).getLast? with
    | none => rw [List.getLast?_eq_none_iff] at hl; exact absurd hl hne
    | some l => dsimp only; rw [someVal_some hy]; exact ⟨_, rfl, rfl⟩
  | flatMap f m =>
    refine ⟨_, rfl, trivial, by simp [NOp.kept, Call.obj], ?_⟩
    intro rs xs ys hd hr
    simp only [Call.run, Option.map_eq_some_iff] at hr
    obtain ⟨ls, hls, rfl⟩ := hr
    rw [mapM_data (g := fun d => (okVal (f d)).bind (fun l => l.mapM id)) hd] at hls
    obtain ⟨ls', h1, h2⟩ := mapM_rel (f := fun r : Rec (Option V) => (okVal (f r.data)).map (fun ds =>
      ds.mapIdx (fun j d => (⟨⟨r.md.index * m + (j : Int), none, none⟩, d⟩ : Rec (Option V))))) (φ := fun l => l.map (·.data))
      (ψ := fun l => l.map some) rs ls (by
        intro r _ y hy
        rw [Option.bind_eq_some_iff] at hy
        obtain ⟨l, hl, hy⟩ := hy
        rw [hl]
        refine ⟨_, rfl, ?_⟩
        dsimp only
        rw [← mapM_id_some l y hy, List.mapIdx_eq_zipIdx_map, List.map_map]
        show l.zipIdx.map (fun x => x.1) = l
        rw [List.zipIdx_map_fst]) hls
    refine ⟨ls'.flatten, ?_, ?_⟩
    · simp only [NOp.run, h1, Option.map_some]
    · rw [List.map_flatten, List.map_flatten]
      exact congrArg List.flatten h2
  | filter pred =>
    refine ⟨_, rfl, trivial, by simp [NOp.kept, Call.obj], ?_⟩
    intro rs xs ys hd hr
    simp only [Call.run, Option.map_eq_some_iff] at hr
    obtain ⟨l, hl, rfl⟩ := hr
    have e : xs.mapM (fun v => (okVal (pred (some v))).map (fun b => (v, b))) =
        xs.mapM (fun v => (fun d : Option V => (okVal (pred d)).bind (fun b => d.map (fun v => (v, b)))) (some v)) := by
      congr 1
      funext v
      dsimp only
      cases okVal (pred (some v)) <;> rfl
    rw [e, mapM_data (g := fun d : Option V => (okVal (pred d)).bind (fun b => d.map (fun v => (v, b)))) hd] at hl
    obtain ⟨l', h1, h2⟩ := mapM_rel (f := fun r : Rec (Option V) => (okVal (pred r.data)).map (fun b => (r, b)))
      (φ := fun x => (x.1.data, x.2)) (ψ := fun x => (some x.1, x.2)) rs l (by
        intro r _ y hy
        simp only [Option.bind_eq_some_iff, Option.map_eq_some_iff] at hy
        obtain ⟨b, hb, v, hv, rfl⟩ := hy
        rw [hb]
        exact ⟨_, rfl, by simp [hv]⟩) hl
    refine ⟨(l'.filter (·.2)).map (·.1), ?_, ?_⟩
    · simp only [NOp.run, LdOp.run, DlOp.run, h1, Option.map_some]
    · have h3 := congrArg (fun z => (z.filter (fun x : Option V × Bool => x.2)).map (fun x => x.1)) h2
      simpa [List.filter_map, List.map_map, Function.comp_def] using h3

theorem loader_runs {rng : Nat → Nat → Option Int} : ∀ (cs : List (Call V)) (k : Nat), (∀ c ∈ cs, c.plain = true) → (∀ c ∈ cs, c.valid) →
    ∃ ops, (cs.map Call.obj).mapM TObj.loaderOp = .ok ops ∧ (∀ op ∈ ops, op.valid) ∧
      (usesNative (cs.map Call.obj) = false → ops = (ops.filterMap NOp.kept).map NOp.keep) ∧
      ∀ {rs : List (Rec (Option V))} {xs ys : List V}, rs.map (·.data) = xs.map some → runCalls rng k cs xs = some ys →
        ∃ rs', runNOps ops rs = some rs' ∧ rs'.map (·.data) = ys.map some := by
  intro cs
  induction cs with
  | nil =>
    intro k _ _
    exact ⟨[], rfl, by simp, fun _ => rfl, fun hd hr => by cases hr; exact ⟨_, rfl, hd⟩⟩
  | cons c cs ih =>
    intro k hp hv
    obtain ⟨op, h1, h2, h3, h4⟩ := loader_run (rng := rng k) (hp c (by simp)) (hv c (by simp))
    obtain ⟨ops, g1, g2, g3, g4⟩ := ih (k + 1) (fun d hd => hp d (by simp [hd])) (fun d hd => hv d (by simp [hd]))
    refine ⟨op :: ops, ?_, ?_, ?_, ?_⟩
    · rw [List.map_cons, List.mapM_cons, h1, g1]; rfl
    · intro o ho
      rw [List.mem_cons] at ho
      rcases ho with rfl | ho
      · exact h2
      · exact g2 o ho
    · intro hn
      unfold usesNative at hn
      rw [List.map_cons, List.any_cons, Bool.or_eq_false_iff] at hn
      have hk : op.kept ≠ none := by rw [Ne, h3, hn.1]; simp
      cases op with
      | flatMap f m => exact absurd rfl hk
      | keep op => exact congrArg (NOp.keep op :: ·) (g3 hn.2)
    · intro rs xs ys hd hr
      simp only [runCalls, Option.bind_eq_some_iff] at hr
      obtain ⟨zs, hz, hr⟩ := hr
      obtain ⟨rs1, e1, e2⟩ := h4 hd hz
      obtain ⟨rs2, e3, e4⟩ := g4 e2 hr
      exact ⟨rs2, by rw [runNOps, e1]; exact e3, e4⟩

theorem runNOps_keep : ∀ (ops : List (LdOp D)) (rs : List (Rec D)), runNOps (ops.map NOp.keep) rs = runLdOps ops rs := by
  intro ops
  induction ops with
  | nil => intro rs; rfl
  | cons op ops ih =>
    intro rs
    simp only [List.map_cons, runNOps, runLdOps, NOp.run]
    congr 1
    funext zs
    exact ih zs

end Grain
