import Verif.Batch.Model
import Verif.Tree.Lemmas
/-
Lemmas for C62 and C63.
-/
namespace Grain

/-! ### `map_structure` over many trees -/

theorem py_mapM_of_map {f : α → Py β} : ∀ {l : List α} {r : List β}, l.map f = r.map Except.ok → l.mapM f = .ok r
  | [], [], _ => rfl
  | [], _ :: _, h => by simp at h
  | _ :: _, [], h => by simp at h
  | a :: l, b :: r, h => by
    simp only [List.map_cons, List.cons.injEq] at h
    rw [List.mapM_cons, h.1, py_mapM_of_map h.2]; rfl

theorem py_map_of_mapM {f : α → Py β} : ∀ {l : List α} {r : List β}, l.mapM f = .ok r → l.map f = r.map Except.ok
  | [], r, h => by cases h; rfl
  | a :: l, r, h => by
    rw [List.mapM_cons] at h
    cases ha : f a with
    | error e => rw [ha] at h; cases h
    | ok b =>
      rw [ha] at h
      cases hl : l.mapM f with
      | error e => rw [hl] at h; cases h
      | ok bs =>
        rw [hl] at h; cases h
        rw [List.map_cons, ha, py_map_of_mapM hl]; rfl

theorem map_transfer {f : α → δ} {g : β → δ} {F : α → ε} {G : β → ε} (hfg : ∀ a b, f a = g b → F a = G b) :
    ∀ {l : List α} {r : List β}, l.map f = r.map g → l.map F = r.map G
  | [], [], _ => rfl
  | [], _ :: _, h => by simp at h
  | _ :: _, [], h => by simp at h
  | a :: l, b :: r, h => by
    simp only [List.map_cons, List.cons.injEq] at h ⊢
    exact ⟨hfg a b h.1, map_transfer hfg h.2⟩

theorem seqItems_rows {k : SeqKind} {ts : TreeList α} : ∀ (us : List (Tree β)), (∀ u ∈ us, (Tree.seq k ts).same u = true) →
    ∃ rows : List (TreeList β), us.map Tree.seqItems = rows.map Except.ok ∧ (∀ r ∈ rows, ts.length = r.length ∧ ts.same r = true) ∧
      ∀ i p, us.map (·.at (.pos i :: p)) = rows.map (·.at i p)
  | [], _ => ⟨[], rfl, by simp, fun _ _ => rfl⟩
  | .leaf _ :: us, h => by have := h _ (List.mem_cons_self ..); simp [Tree.same] at this
  | .dict _ _ :: us, h => by have := h _ (List.mem_cons_self ..); simp [Tree.same] at this
  | .seq k' r :: us, h => by
    obtain ⟨rows, h1, h2, h3⟩ := seqItems_rows us (fun u hu => h u (List.mem_cons_of_mem _ hu))
    have h0 := h _ (List.mem_cons_self ..)
    simp only [Tree.same, Bool.and_eq_true, decide_eq_true_eq] at h0
    refine ⟨r :: rows, ?_, ?_, ?_⟩
    · simp only [List.map_cons, h1]; rfl
    · intro r' hr'
      rcases List.mem_cons.1 hr' with rfl | hr'
      · exact ⟨h0.1.2, h0.2⟩
      · exact h2 _ hr'
    · intro i p; simp only [List.map_cons, h3, Tree.at]

theorem dictItems_rows {k : DictKind} {ts : TreeDict α} : ∀ (us : List (Tree β)), (∀ u ∈ us, (Tree.dict k ts).same u = true) →
    ∃ ds : List (TreeDict β), us.map Tree.dictItems = ds.map Except.ok ∧ (∀ r ∈ ds, ts.sameKeys r = true ∧ ts.same r = true) ∧
      ∀ s p, us.map (·.at (.key s :: p)) = ds.map (·.at s p)
  | [], _ => ⟨[], rfl, by simp, fun _ _ => rfl⟩
  | .leaf _ :: us, h => by have := h _ (List.mem_cons_self ..); simp [Tree.same] at this
  | .seq _ _ :: us, h => by have := h _ (List.mem_cons_self ..); simp [Tree.same] at this
  | .dict k' r :: us, h => by
    obtain ⟨rows, h1, h2, h3⟩ := dictItems_rows us (fun u hu => h u (List.mem_cons_of_mem _ hu))
    have h0 := h _ (List.mem_cons_self ..)
    simp only [Tree.same, Bool.and_eq_true] at h0
    refine ⟨r :: rows, ?_, ?_, ?_⟩
    · simp only [List.map_cons, h1]; rfl
    · intro r' hr'
      rcases List.mem_cons.1 hr' with rfl | hr'
      · exact ⟨h0.1.2, h0.2⟩
      · exact h2 _ hr'
    · intro i p; simp only [List.map_cons, h3, Tree.at]

theorem unconsAll_rows {t : Tree α} {ts : TreeList α} : ∀ (rows : List (TreeList β)),
    (∀ r ∈ rows, (TreeList.cons t ts).length = r.length ∧ (TreeList.cons t ts).same r = true) →
    ∃ (hs : List (Tree β)) (tls : List (TreeList β)), unconsAll rows = some (hs, tls) ∧ (∀ u ∈ hs, t.same u = true) ∧
      (∀ r ∈ tls, ts.length = r.length ∧ ts.same r = true) ∧
      (∀ p, rows.map (·.at 0 p) = hs.map (·.at p)) ∧ ∀ i p, rows.map (·.at (i + 1) p) = tls.map (·.at i p)
  | [], _ => ⟨[], [], rfl, by simp, by simp, fun _ => rfl, fun _ _ => rfl⟩
  | .nil :: rows, h => by have := h _ (List.mem_cons_self ..); simp [TreeList.length] at this
  | .cons u us :: rows, h => by
    obtain ⟨hs, tls, h1, h2, h3, h4, h5⟩ := unconsAll_rows rows (fun u hu => h u (List.mem_cons_of_mem _ hu))
    have h0 := h _ (List.mem_cons_self ..)
    simp only [TreeList.length, TreeList.same, Bool.and_eq_true] at h0
    refine ⟨u :: hs, us :: tls, by simp only [unconsAll, h1, Option.map_some], ?_, ?_, ?_, ?_⟩
    · intro x hx
      rcases List.mem_cons.1 hx with rfl | hx
      · exact h0.2.1
      · exact h2 _ hx
    · intro x hx
      rcases List.mem_cons.1 hx with rfl | hx
      · exact ⟨by omega, h0.2.2⟩
      · exact h3 _ hx
    · intro p; simp only [List.map_cons, h4, TreeList.at]
    · intro i p; simp only [List.map_cons, h5, TreeList.at]

theorem getPy_rows {key : String} {t : Tree α} {ts : TreeDict α} : ∀ (ds : List (TreeDict β)),
    (∀ d ∈ ds, (TreeDict.cons key t ts).same d = true) →
    ∃ us : List (Tree β), ds.map (TreeDict.getPy key) = us.map Except.ok ∧ (∀ u ∈ us, t.same u = true) ∧
      (∀ d ∈ ds, ts.same d = true) ∧ ∀ p, ds.map (·.at key p) = us.map (·.at p)
  | [], _ => ⟨[], rfl, by simp, by simp, fun _ => rfl⟩
  | d :: ds, h => by
    obtain ⟨us, h1, h2, h3, h4⟩ := getPy_rows ds (fun u hu => h u (List.mem_cons_of_mem _ hu))
    have h0 := h _ (List.mem_cons_self ..)
    simp only [TreeDict.same] at h0
    cases hl : d.lookup key with
    | none => rw [hl] at h0; cases h0
    | some u =>
      rw [hl] at h0
      simp only [Bool.and_eq_true] at h0
      refine ⟨u :: us, ?_, ?_, ?_, ?_⟩
      · simp only [List.map_cons, h1, TreeDict.getPy, hl]
      · intro x hx
        rcases List.mem_cons.1 hx with rfl | hx
        · exact h0.1
        · exact h2 _ hx
      · intro x hx
        rcases List.mem_cons.1 hx with rfl | hx
        · exact h0.2
        · exact h3 _ hx
      · intro p
        simp only [List.map_cons, h4, TreeDict.at_lookup d, hl, Option.bind_some]

theorem TreeList.length_of_map : ∀ {a : TreeList α} {b : TreeList β}, a.map (fun _ => ()) = b.map (fun _ => ()) →
    a.length = b.length
  | .nil, .nil, _ => rfl
  | .nil, .cons _ _, h => by cases h
  | .cons _ _, .nil, h => by cases h
  | .cons _ a, .cons _ b, h => by
    simp only [TreeList.map, TreeList.cons.injEq] at h
    simp only [TreeList.length, TreeList.length_of_map h.2]

theorem namedCheck {k : SeqKind} {c ts : TreeList γ} {n : Nat} {r : Tree γ}
    (h : (match k with
      | .named _ => if c.length = n then (.ok (.seq k c) : Py (Tree γ)) else .error .typeError
      | _ => .ok (.seq k c)) = .ok r) : r = .seq k c := by
  cases k with
  | list => cases h; rfl
  | tuple => cases h; rfl
  | named s =>
    simp only at h
    split at h
    · cases h; rfl
    · cases h

theorem py_bind_ok {x : Py α} {g : α → Py β} {c : β} (h : (x >>= g) = .ok c) : ∃ y, x = .ok y ∧ g y = .ok c := by
  cases x with
  | error e => cases h
  | ok y => exact ⟨y, rfl, h⟩

mutual
/-- A successful `map_structure` over many trees that `assert_same_structure` accepts: shape of the first, and at every path
`f` of the leaf of the first and what the others have there. -/
theorem Tree.mapN_spec (f : α → List (Tree β) → Py γ) : ∀ (a : Tree α) (us : List (Tree β)) (c : Tree γ),
    (∀ u ∈ us, a.same u = true) → a.mapN f us = .ok c →
    c.map (fun _ => ()) = a.map (fun _ => ()) ∧
    ∀ p x, a.leafAt p = some x → ∃ ws y, us.map (·.at p) = ws.map some ∧ f x ws = .ok y ∧ c.leafAt p = some y
  | .leaf a, us, c, _, h => by
    simp only [Tree.mapN] at h
    obtain ⟨y, h1, rfl⟩ := okBind₁ h
    refine ⟨rfl, fun p x hx => ?_⟩
    obtain ⟨rfl, rfl⟩ := (Tree.leafAt_leaf _ _ _).1 hx
    exact ⟨us, y, by simp [Tree.at], h1, by simp [Tree.leafAt, Tree.at, asLeaf]⟩
  | .seq k ts, us, c, hs, h => by
    obtain ⟨rows, h1, h2, h3⟩ := seqItems_rows us hs
    simp only [Tree.mapN] at h
    rw [py_mapM_of_map h1] at h
    obtain ⟨y, hy, h⟩ := py_bind_ok (x := TreeList.mapN f ts rows) h
    have hc := namedCheck (ts := y) h
    subst hc
    obtain ⟨e1, e2⟩ := TreeList.mapN_spec f ts rows y h2 hy
    refine ⟨by simp only [Tree.map, e1], fun p x hx => ?_⟩
    match p, hx with
    | [], hx => simp [Tree.leafAt, Tree.at, asLeaf] at hx
    | .key s :: p, hx => simp [Tree.leafAt, Tree.at, asLeaf] at hx
    | .pos i :: p, hx =>
      obtain ⟨ws, z, g1, g2, g3⟩ := e2 i p x (by simpa [Tree.leafAt, Tree.at] using hx)
      exact ⟨ws, z, by rw [h3, g1], g2, by simpa [Tree.leafAt, Tree.at] using g3⟩
  | .dict k ts, us, c, hs, h => by
    obtain ⟨ds, h1, h2, h3⟩ := dictItems_rows us hs
    simp only [Tree.mapN] at h
    rw [py_mapM_of_map h1] at h
    have hall : ds.all (fun d => d.keys.all (fun s => ts.keys.contains s)) = true := by
      rw [List.all_eq_true]
      intro d hd
      have := (h2 d hd).1
      simp only [TreeDict.sameKeys, Bool.and_eq_true] at this
      exact this.2
    have h' : (do .ok (Tree.dict k (← TreeDict.mapN f ts ds)) : Py (Tree γ)) = .ok c := by
      have := h
      simp only [bind, Except.bind, hall, if_true] at this ⊢
      exact this
    obtain ⟨y, hy, rfl⟩ := okBind₁ h'
    obtain ⟨e1, e2⟩ := TreeDict.mapN_spec f ts ds y (fun d hd => (h2 d hd).2) hy
    refine ⟨by simp only [Tree.map, e1], fun p x hx => ?_⟩
    match p, hx with
    | [], hx => simp [Tree.leafAt, Tree.at, asLeaf] at hx
    | .pos s :: p, hx => simp [Tree.leafAt, Tree.at, asLeaf] at hx
    | .key i :: p, hx =>
      obtain ⟨ws, z, g1, g2, g3⟩ := e2 i p x (by simpa [Tree.leafAt, Tree.at] using hx)
      exact ⟨ws, z, by rw [h3, g1], g2, by simpa [Tree.leafAt, Tree.at] using g3⟩
theorem TreeList.mapN_spec (f : α → List (Tree β) → Py γ) : ∀ (a : TreeList α) (rows : List (TreeList β)) (c : TreeList γ),
    (∀ r ∈ rows, a.length = r.length ∧ a.same r = true) → a.mapN f rows = .ok c →
    c.map (fun _ => ()) = a.map (fun _ => ()) ∧
    ∀ i p x, asLeaf (a.at i p) = some x →
      ∃ ws y, rows.map (·.at i p) = ws.map some ∧ f x ws = .ok y ∧ asLeaf (c.at i p) = some y
  | .nil, rows, c, _, h => by
    cases h; exact ⟨rfl, fun i p x hx => by simp [TreeList.at, asLeaf] at hx⟩
  | .cons t ts, rows, c, hs, h => by
    obtain ⟨hds, tls, h1, h2, h3, h4, h5⟩ := unconsAll_rows rows hs
    simp only [TreeList.mapN, h1] at h
    obtain ⟨y, z, hy, hz, rfl⟩ := okBind₂ h
    obtain ⟨e1, e2⟩ := Tree.mapN_spec f t hds y h2 hy
    obtain ⟨e3, e4⟩ := TreeList.mapN_spec f ts tls z h3 hz
    refine ⟨by simp only [TreeList.map, e1, e3], fun i p x hx => ?_⟩
    cases i with
    | zero =>
      obtain ⟨ws, w, g1, g2, g3⟩ := e2 p x (by simpa [TreeList.at, Tree.leafAt] using hx)
      exact ⟨ws, w, by rw [h4, g1], g2, by simpa [TreeList.at, Tree.leafAt] using g3⟩
    | succ i =>
      obtain ⟨ws, w, g1, g2, g3⟩ := e4 i p x (by simpa [TreeList.at] using hx)
      exact ⟨ws, w, by rw [h5, g1], g2, by simpa [TreeList.at] using g3⟩
theorem TreeDict.mapN_spec (f : α → List (Tree β) → Py γ) : ∀ (a : TreeDict α) (ds : List (TreeDict β)) (c : TreeDict γ),
    (∀ d ∈ ds, a.same d = true) → a.mapN f ds = .ok c →
    c.map (fun _ => ()) = a.map (fun _ => ()) ∧
    ∀ s p x, asLeaf (a.at s p) = some x →
      ∃ ws y, ds.map (·.at s p) = ws.map some ∧ f x ws = .ok y ∧ asLeaf (c.at s p) = some y
  | .nil, ds, c, _, h => by
    cases h; exact ⟨rfl, fun i p x hx => by simp [TreeDict.at, asLeaf] at hx⟩
  | .cons key t ts, ds, c, hs, h => by
    obtain ⟨us, h1, h2, h3, h4⟩ := getPy_rows ds hs
    simp only [TreeDict.mapN] at h
    rw [py_mapM_of_map h1] at h
    obtain ⟨y, z, hy, hz, rfl⟩ := okBind₂ h
    obtain ⟨e1, e2⟩ := Tree.mapN_spec f t us y h2 hy
    obtain ⟨e3, e4⟩ := TreeDict.mapN_spec f ts ds z h3 hz
    refine ⟨by simp only [TreeDict.map, e1, e3], fun s p x hx => ?_⟩
    by_cases hk : key = s
    · subst hk
      obtain ⟨ws, w, g1, g2, g3⟩ := e2 p x (by simpa [TreeDict.at, Tree.leafAt] using hx)
      exact ⟨ws, w, by rw [h4, g1], g2, by simpa [TreeDict.at, Tree.leafAt] using g3⟩
    · obtain ⟨ws, w, g1, g2, g3⟩ := e4 s p x (by simpa [TreeDict.at, hk] using hx)
      exact ⟨ws, w, g1, g2, by simpa [TreeDict.at, hk] using g3⟩
end

mutual
/-- `map_structure` over such trees succeeds if `f` does at every leaf of the first. -/
theorem Tree.mapN_ok (f : α → List (Tree β) → Py γ) : ∀ (a : Tree α) (us : List (Tree β)), a.Ok →
    (∀ u ∈ us, a.same u = true) →
    (∀ p x ws, a.leafAt p = some x → us.map (·.at p) = ws.map some → ∃ y, f x ws = .ok y) → ∃ c, a.mapN f us = .ok c
  | .leaf a, us, _, _, h => by
    obtain ⟨y, hy⟩ := h [] a us (by simp [Tree.leafAt, Tree.at, asLeaf]) (by simp [Tree.at])
    exact ⟨.leaf y, by simp only [Tree.mapN, hy]; rfl⟩
  | .seq k ts, us, hok, hs, h => by
    obtain ⟨rows, h1, h2, h3⟩ := seqItems_rows us hs
    obtain ⟨c, hc⟩ := TreeList.mapN_ok f ts rows hok h2 (fun i p x ws hx hw =>
      h (.pos i :: p) x ws (by simpa [Tree.leafAt, Tree.at] using hx) (by rw [h3, hw]))
    have hl : c.length = ts.length := TreeList.length_of_map (TreeList.mapN_spec f ts rows c h2 hc).1
    refine ⟨.seq k c, ?_⟩
    simp only [Tree.mapN]
    rw [py_mapM_of_map h1]
    show (do
      let c ← TreeList.mapN f ts rows
      match k with
      | .named _ => if c.length = ts.length then (.ok (.seq k c) : Py (Tree γ)) else .error .typeError
      | _ => .ok (.seq k c)) = _
    rw [hc]
    cases k <;> simp [bind, Except.bind, hl]
  | .dict k ts, us, hok, hs, h => by
    obtain ⟨ds, h1, h2, h3⟩ := dictItems_rows us hs
    have hall : ds.all (fun d => d.keys.all (fun s => ts.keys.contains s)) = true := by
      rw [List.all_eq_true]
      intro d hd
      have := (h2 d hd).1
      simp only [TreeDict.sameKeys, Bool.and_eq_true] at this
      exact this.2
    obtain ⟨c, hc⟩ := TreeDict.mapN_ok f ts ds hok (fun d hd => (h2 d hd).2) (fun i p x ws hx hw =>
      h (.key i :: p) x ws (by simpa [Tree.leafAt, Tree.at] using hx) (by rw [h3, hw]))
    refine ⟨.dict k c, ?_⟩
    simp only [Tree.mapN]
    rw [py_mapM_of_map h1]
    simp only [bind, Except.bind, hall, if_true, hc]
theorem TreeList.mapN_ok (f : α → List (Tree β) → Py γ) : ∀ (a : TreeList α) (rows : List (TreeList β)), a.Ok →
    (∀ r ∈ rows, a.length = r.length ∧ a.same r = true) →
    (∀ i p x ws, asLeaf (a.at i p) = some x → rows.map (·.at i p) = ws.map some → ∃ y, f x ws = .ok y) →
    ∃ c, a.mapN f rows = .ok c
  | .nil, rows, _, _, _ => ⟨.nil, rfl⟩
  | .cons t ts, rows, hok, hs, h => by
    obtain ⟨hds, tls, h1, h2, h3, h4, h5⟩ := unconsAll_rows rows hs
    simp only [TreeList.Ok] at hok
    obtain ⟨y, hy⟩ := Tree.mapN_ok f t hds hok.1 h2 (fun p x ws hx hw => h 0 p x ws (by simpa [TreeList.at, Tree.leafAt] using hx) (by rw [h4, hw]))
    obtain ⟨z, hz⟩ := TreeList.mapN_ok f ts tls hok.2 h3 (fun i p x ws hx hw => h (i + 1) p x ws (by simpa [TreeList.at] using hx) (by rw [h5, hw]))
    exact ⟨.cons y z, by simp only [TreeList.mapN, h1, hy, hz]; rfl⟩
theorem TreeDict.mapN_ok (f : α → List (Tree β) → Py γ) : ∀ (a : TreeDict α) (ds : List (TreeDict β)), a.Ok →
    (∀ d ∈ ds, a.same d = true) →
    (∀ s p x ws, asLeaf (a.at s p) = some x → ds.map (·.at s p) = ws.map some → ∃ y, f x ws = .ok y) →
    ∃ c, a.mapN f ds = .ok c
  | .nil, ds, _, _, _ => ⟨.nil, rfl⟩
  | .cons key t ts, ds, hok, hs, h => by
    obtain ⟨us, h1, h2, h3, h4⟩ := getPy_rows ds hs
    simp only [TreeDict.Ok] at hok
    obtain ⟨y, hy⟩ := Tree.mapN_ok f t us hok.2.1 h2 (fun p x ws hx hw =>
      h key p x ws (by simpa [TreeDict.at, Tree.leafAt] using hx) (by rw [h4, hw]))
    obtain ⟨z, hz⟩ := TreeDict.mapN_ok f ts ds hok.2.2 h3 (fun s p x ws hx hw => by
      by_cases hk : key = s
      · subst hk; rw [TreeDict.at_none_of_not_mem ts key p hok.1] at hx; cases hx
      · exact h s p x ws (by simpa [TreeDict.at, hk] using hx) hw)
    refine ⟨.cons key y z, ?_⟩
    simp only [TreeDict.mapN]
    rw [py_mapM_of_map h1]
    simp only [bind, Except.bind, hy, hz]
end

mutual
theorem Tree.mapN_congr (f g : α → List (Tree β) → Py γ) : ∀ (a : Tree α) (us : List (Tree β)), a.Ok →
    (∀ u ∈ us, a.same u = true) →
    (∀ p x ws, a.leafAt p = some x → us.map (·.at p) = ws.map some → f x ws = g x ws) → a.mapN f us = a.mapN g us
  | .leaf a, us, _, _, h => by
    simp only [Tree.mapN, h [] a us (by simp [Tree.leafAt, Tree.at, asLeaf]) (by simp [Tree.at])]
  | .seq k ts, us, hok, hs, h => by
    obtain ⟨rows, h1, h2, h3⟩ := seqItems_rows us hs
    have hc := TreeList.mapN_congr f g ts rows hok h2 (fun i p x ws hx hw =>
      h (.pos i :: p) x ws (by simpa [Tree.leafAt, Tree.at] using hx) (by rw [h3, hw]))
    simp only [Tree.mapN]
    rw [py_mapM_of_map h1]
    simp only [bind, Except.bind, hc]
  | .dict k ts, us, hok, hs, h => by
    obtain ⟨ds, h1, h2, h3⟩ := dictItems_rows us hs
    have hc := TreeDict.mapN_congr f g ts ds hok (fun d hd => (h2 d hd).2) (fun i p x ws hx hw =>
      h (.key i :: p) x ws (by simpa [Tree.leafAt, Tree.at] using hx) (by rw [h3, hw]))
    simp only [Tree.mapN]
    rw [py_mapM_of_map h1]
    simp only [bind, Except.bind, hc]
theorem TreeList.mapN_congr (f g : α → List (Tree β) → Py γ) : ∀ (a : TreeList α) (rows : List (TreeList β)), a.Ok →
    (∀ r ∈ rows, a.length = r.length ∧ a.same r = true) →
    (∀ i p x ws, asLeaf (a.at i p) = some x → rows.map (·.at i p) = ws.map some → f x ws = g x ws) →
    a.mapN f rows = a.mapN g rows
  | .nil, rows, _, _, _ => rfl
  | .cons t ts, rows, hok, hs, h => by
    obtain ⟨hds, tls, h1, h2, h3, h4, h5⟩ := unconsAll_rows rows hs
    simp only [TreeList.Ok] at hok
    have hy := Tree.mapN_congr f g t hds hok.1 h2 (fun p x ws hx hw =>
      h 0 p x ws (by simpa [TreeList.at, Tree.leafAt] using hx) (by rw [h4, hw]))
    have hz := TreeList.mapN_congr f g ts tls hok.2 h3 (fun i p x ws hx hw =>
      h (i + 1) p x ws (by simpa [TreeList.at] using hx) (by rw [h5, hw]))
    simp only [TreeList.mapN, h1, hy, hz]
theorem TreeDict.mapN_congr (f g : α → List (Tree β) → Py γ) : ∀ (a : TreeDict α) (ds : List (TreeDict β)), a.Ok →
    (∀ d ∈ ds, a.same d = true) →
    (∀ s p x ws, asLeaf (a.at s p) = some x → ds.map (·.at s p) = ws.map some → f x ws = g x ws) →
    a.mapN f ds = a.mapN g ds
  | .nil, ds, _, _, _ => rfl
  | .cons key t ts, ds, hok, hs, h => by
    obtain ⟨us, h1, h2, h3, h4⟩ := getPy_rows ds hs
    simp only [TreeDict.Ok] at hok
    have hy := Tree.mapN_congr f g t us hok.2.1 h2 (fun p x ws hx hw =>
      h key p x ws (by simpa [TreeDict.at, Tree.leafAt] using hx) (by rw [h4, hw]))
    have hz := TreeDict.mapN_congr f g ts ds hok.2.2 h3 (fun s p x ws hx hw => by
      by_cases hk : key = s
      · subst hk; rw [TreeDict.at_none_of_not_mem ts key p hok.1] at hx; cases hx
      · exact h s p x ws (by simpa [TreeDict.at, hk] using hx) hw)
    simp only [TreeDict.mapN]
    rw [py_mapM_of_map h1]
    simp only [bind, Except.bind, hy, hz]
end

theorem seqItems_at {us : List (Tree β)} {rows : List (TreeList β)} (h : us.mapM Tree.seqItems = .ok rows) (i : Nat)
    (p : List PathKey) : us.map (·.at (.pos i :: p)) = rows.map (·.at i p) := by
  refine map_transfer (fun a b hab => ?_) (py_map_of_mapM h)
  cases a with
  | leaf _ => cases hab
  | dict _ _ => cases hab
  | seq k ts => cases hab; simp only [Tree.at]

theorem dictItems_at {us : List (Tree β)} {ds : List (TreeDict β)} (h : us.mapM Tree.dictItems = .ok ds) (s : String)
    (p : List PathKey) : us.map (·.at (.key s :: p)) = ds.map (·.at s p) := by
  refine map_transfer (fun a b hab => ?_) (py_map_of_mapM h)
  cases a with
  | leaf _ => cases hab
  | seq _ _ => cases hab
  | dict k ts => cases hab; simp only [Tree.at]

theorem getPy_at {ds : List (TreeDict β)} {us : List (Tree β)} {key : String} (h : ds.mapM (TreeDict.getPy key) = .ok us)
    (p : List PathKey) : ds.map (·.at key p) = us.map (·.at p) := by
  refine map_transfer (fun a b hab => ?_) (py_map_of_mapM h)
  unfold TreeDict.getPy at hab
  cases hl : a.lookup key with
  | none => rw [hl] at hab; cases hab
  | some u =>
    rw [hl] at hab; cases hab
    rw [TreeDict.at_lookup, hl, Option.bind_some]

theorem unconsAll_at : ∀ {rows : List (TreeList β)} {hs : List (Tree β)} {tls : List (TreeList β)},
    unconsAll rows = some (hs, tls) →
    (∀ p, rows.map (·.at 0 p) = hs.map (·.at p)) ∧ ∀ i p, rows.map (·.at (i + 1) p) = tls.map (·.at i p)
  | [], _, _, h => by cases h; exact ⟨fun _ => rfl, fun _ _ => rfl⟩
  | .nil :: _, _, _, h => by cases h
  | .cons t ts :: rows, hs, tls, h => by
    simp only [unconsAll] at h
    cases hr : unconsAll rows with
    | none => rw [hr] at h; cases h
    | some q =>
      obtain ⟨q1, q2⟩ := q
      rw [hr] at h; cases h
      obtain ⟨h1, h2⟩ := unconsAll_at hr
      exact ⟨fun p => by simp only [List.map_cons, h1, TreeList.at], fun i p => by simp only [List.map_cons, h2, TreeList.at]⟩

mutual
/-- Whatever the trees: a leaf of the result of `map_structure` is `f` of the leaf of the first and of what all others have
at the same path. -/
theorem Tree.mapN_leaf (f : α → List (Tree β) → Py γ) : ∀ (a : Tree α) (us : List (Tree β)) (c : Tree γ),
    a.mapN f us = .ok c → ∀ p y, c.leafAt p = some y →
      ∃ x ws, a.leafAt p = some x ∧ us.map (·.at p) = ws.map some ∧ f x ws = .ok y
  | .leaf a, us, c, h, p, y, hy => by
    simp only [Tree.mapN] at h
    obtain ⟨z, h1, rfl⟩ := okBind₁ h
    obtain ⟨rfl, rfl⟩ := (Tree.leafAt_leaf _ _ _).1 hy
    exact ⟨a, us, by simp [Tree.leafAt, Tree.at, asLeaf], by simp [Tree.at], h1⟩
  | .seq k ts, us, c, h, p, y, hy => by
    simp only [Tree.mapN] at h
    obtain ⟨rows, h1, h⟩ := py_bind_ok h
    obtain ⟨z, hz, h⟩ := py_bind_ok (x := TreeList.mapN f ts rows) h
    have hc := namedCheck (ts := z) h
    subst hc
    match p, hy with
    | [], hy => simp [Tree.leafAt, Tree.at, asLeaf] at hy
    | .key s :: p, hy => simp [Tree.leafAt, Tree.at, asLeaf] at hy
    | .pos i :: p, hy =>
      obtain ⟨x, ws, g1, g2, g3⟩ := TreeList.mapN_leaf f ts rows z hz i p y (by simpa [Tree.leafAt, Tree.at] using hy)
      exact ⟨x, ws, by simpa [Tree.leafAt, Tree.at] using g1, by rw [seqItems_at h1, g2], g3⟩
  | .dict k ts, us, c, h, p, y, hy => by
    simp only [Tree.mapN] at h
    obtain ⟨ds, h1, h⟩ := py_bind_ok h
    split at h
    · obtain ⟨z, hz, rfl⟩ := okBind₁ h
      match p, hy with
      | [], hy => simp [Tree.leafAt, Tree.at, asLeaf] at hy
      | .pos s :: p, hy => simp [Tree.leafAt, Tree.at, asLeaf] at hy
      | .key s :: p, hy =>
        obtain ⟨x, ws, g1, g2, g3⟩ := TreeDict.mapN_leaf f ts ds z hz s p y (by simpa [Tree.leafAt, Tree.at] using hy)
        exact ⟨x, ws, by simpa [Tree.leafAt, Tree.at] using g1, by rw [dictItems_at h1, g2], g3⟩
    · cases h
theorem TreeList.mapN_leaf (f : α → List (Tree β) → Py γ) : ∀ (a : TreeList α) (rows : List (TreeList β)) (c : TreeList γ),
    a.mapN f rows = .ok c → ∀ i p y, asLeaf (c.at i p) = some y →
      ∃ x ws, asLeaf (a.at i p) = some x ∧ rows.map (·.at i p) = ws.map some ∧ f x ws = .ok y
  | .nil, rows, c, h, i, p, y, hy => by cases h; simp [TreeList.at, asLeaf] at hy
  | .cons t ts, rows, c, h, i, p, y, hy => by
    simp only [TreeList.mapN] at h
    split at h
    · cases h; simp [TreeList.at, asLeaf] at hy
    · rename_i q hq
      obtain ⟨z, w, hz, hw, rfl⟩ := okBind₂ h
      obtain ⟨e1, e2⟩ := unconsAll_at (hs := q.1) (tls := q.2) hq
      cases i with
      | zero =>
        obtain ⟨x, ws, g1, g2, g3⟩ := Tree.mapN_leaf f t q.1 z hz p y (by simpa [TreeList.at, Tree.leafAt] using hy)
        exact ⟨x, ws, by simpa [TreeList.at, Tree.leafAt] using g1, by rw [e1, g2], g3⟩
      | succ i =>
        obtain ⟨x, ws, g1, g2, g3⟩ := TreeList.mapN_leaf f ts q.2 w hw i p y (by simpa [TreeList.at] using hy)
        exact ⟨x, ws, by simpa [TreeList.at] using g1, by rw [e2, g2], g3⟩
theorem TreeDict.mapN_leaf (f : α → List (Tree β) → Py γ) : ∀ (a : TreeDict α) (ds : List (TreeDict β)) (c : TreeDict γ),
    a.mapN f ds = .ok c → ∀ s p y, asLeaf (c.at s p) = some y →
      ∃ x ws, asLeaf (a.at s p) = some x ∧ ds.map (·.at s p) = ws.map some ∧ f x ws = .ok y
  | .nil, ds, c, h, s, p, y, hy => by cases h; simp [TreeDict.at, asLeaf] at hy
  | .cons key t ts, ds, c, h, s, p, y, hy => by
    simp only [TreeDict.mapN] at h
    obtain ⟨us, h1, h⟩ := py_bind_ok h
    obtain ⟨z, w, hz, hw, rfl⟩ := okBind₂ h
    by_cases hk : key = s
    · subst hk
      obtain ⟨x, ws, g1, g2, g3⟩ := Tree.mapN_leaf f t us z hz p y (by simpa [TreeDict.at, Tree.leafAt] using hy)
      exact ⟨x, ws, by simpa [TreeDict.at, Tree.leafAt] using g1, by rw [getPy_at h1, g2], g3⟩
    · obtain ⟨x, ws, g1, g2, g3⟩ := TreeDict.mapN_leaf f ts ds w hw s p y (by simpa [TreeDict.at, hk] using hy)
      exact ⟨x, ws, by simpa [TreeDict.at, hk] using g1, g2, g3⟩
end

/-! ### Arrays -/

theorem flatMap_chunk {g : α → List β} {m : Nat} : ∀ {xs : List α}, (∀ x ∈ xs, (g x).length = m) → ∀ {k : Nat} {x : α},
    xs[k]? = some x → ((xs.flatMap g).drop (k * m)).take m = g x
  | [], _, k, x, h => by simp at h
  | y :: ys, hl, 0, x, h => by
    simp only [List.getElem?_cons_zero, Option.some.injEq] at h
    subst h
    have := hl y (List.mem_cons_self ..)
    rw [Nat.zero_mul, List.drop_zero, List.flatMap_cons, ← this, List.take_left']
    rfl
  | y :: ys, hl, k + 1, x, h => by
    have h0 := hl y (List.mem_cons_self ..)
    rw [List.flatMap_cons, Nat.add_mul, Nat.one_mul, Nat.add_comm, ← List.drop_drop]
    conv => lhs; arg 2; arg 2; rw [← h0, List.drop_left']
    exact flatMap_chunk (fun x hx => hl x (List.mem_cons_of_mem _ hx)) (by simpa using h)

theorem flatMap_length {g : α → List β} {m : Nat} : ∀ {xs : List α}, (∀ x ∈ xs, (g x).length = m) →
    (xs.flatMap g).length = xs.length * m
  | [], _ => by simp
  | y :: ys, hl => by
    rw [List.flatMap_cons, List.length_append, hl y (List.mem_cons_self ..),
      flatMap_length (fun x hx => hl x (List.mem_cons_of_mem _ hx)), List.length_cons, Nat.add_mul]
    omega

/-- The array with the given arrays, of shape `s` and cast to type `d`, as its rows. -/
def stacked {N : Numpy} (s : List Nat) (d : N.D) (xs : List (Arr N)) : Arr N :=
  ⟨xs.length :: s, d, xs.flatMap (fun a => a.data.map (N.cast a.dtype d))⟩

theorem stacked_wf {N : Numpy} {s : List Nat} {d : N.D} {xs : List (Arr N)} (hs : ∀ a ∈ xs, a.shape = s) (hw : ∀ a ∈ xs, a.WF) :
    (stacked s d xs).WF := by
  show (xs.flatMap _).length = xs.length * numel s
  apply flatMap_length
  intro a ha
  rw [List.length_map, hw a ha, hs a ha]

theorem stacked_row {N : Numpy} {s : List Nat} {d : N.D} {xs : List (Arr N)} (hs : ∀ a ∈ xs, a.shape = s) (hw : ∀ a ∈ xs, a.WF)
    {k : Nat} {a : Arr N} (hk : xs[k]? = some a) : (stacked s d xs).row k = some (a.astype d) := by
  have hlt : k < xs.length := by
    rcases Nat.lt_or_ge k xs.length with h | h
    · exact h
    · rw [List.getElem?_eq_none_iff.2 h] at hk; cases hk
  have hmem : a ∈ xs := List.mem_of_getElem? hk
  simp only [Arr.row, stacked, hlt, if_true, Arr.astype, Option.some.injEq]
  rw [hs a hmem]
  congr 1
  exact flatMap_chunk (fun a ha => by rw [List.length_map, hw a ha, hs a ha]) hk

theorem npStack_spec {N : Numpy} {x : Arr N} {xs : List (Arr N)} {c : Arr N} (h : npStack (x :: xs) = .ok c) :
    (∀ a ∈ x :: xs, a.shape = x.shape) ∧ N.resultType ((x :: xs).map (·.dtype)) = .ok c.dtype ∧
      c = stacked x.shape c.dtype (x :: xs) := by
  simp only [npStack] at h
  split at h
  · rename_i hall
    rw [List.all_eq_true] at hall
    obtain ⟨d, hd, h⟩ := py_bind_ok h
    cases h
    exact ⟨fun a ha => of_decide_eq_true (hall a ha), hd, rfl⟩
  · cases h

theorem npStack_ok {N : Numpy} {x : Arr N} {xs : List (Arr N)} {d : N.D} (hs : ∀ a ∈ x :: xs, a.shape = x.shape)
    (hd : N.resultType ((x :: xs).map (·.dtype)) = .ok d) : npStack (x :: xs) = .ok (stacked x.shape d (x :: xs)) := by
  have hall : (x :: xs).all (fun a => decide (a.shape = x.shape)) = true := by
    rw [List.all_eq_true]; exact fun a ha => decide_eq_true (hs a ha)
  simp only [npStack, hall, if_true, hd]
  rfl

theorem resultType_uniform {N : Numpy} (L : N.Lawful) {x : Arr N} {xs : List (Arr N)} (h : ∀ a ∈ xs, a.dtype = x.dtype) :
    N.resultType ((x :: xs).map (·.dtype)) = .ok x.dtype := by
  rw [List.map_cons]
  apply L.same
  intro e he
  obtain ⟨a, ha, rfl⟩ := List.mem_map.1 he
  exact h a ha

theorem astype_self {N : Numpy} (L : N.Lawful) (a : Arr N) : a.astype a.dtype = a := by
  have : a.data.map (N.cast a.dtype a.dtype) = a.data := by
    conv => rhs; rw [← List.map_id a.data]
    apply List.map_congr_left
    intro v _
    exact L.castSame _ _
  simp only [Arr.astype, this]

theorem expandDims_eq {N : Numpy} (L : N.Lawful) (a : Arr N) : expandDims a = stacked a.shape a.dtype [a] := by
  have := congrArg Arr.data (astype_self L a)
  simp only [Arr.astype] at this
  simp only [expandDims, stacked, List.flatMap_cons, List.flatMap_nil, List.append_nil, this, List.length_cons, List.length_nil]

/-! ### The feature at a path -/

theorem leaves_of {p : List PathKey} : ∀ {vs : List (Tree α)}, (∀ u ∈ vs, (u.leafAt p).isSome) →
    ∃ bs : List α, vs.map (·.leafAt p) = bs.map some
  | [], _ => ⟨[], rfl⟩
  | v :: vs, h => by
    obtain ⟨bs, hb⟩ := leaves_of (fun u hu => h u (List.mem_cons_of_mem _ hu))
    obtain ⟨b, hb'⟩ := Option.isSome_iff_exists.1 (h v (List.mem_cons_self ..))
    exact ⟨b :: bs, by simp only [List.map_cons, hb, hb']⟩

theorem leafAt_at {t : Tree α} {p : List PathKey} {b : α} (h : t.leafAt p = some b) : t.at p = some (.leaf b) := by
  unfold Tree.leafAt asLeaf at h
  split at h
  · rename_i heq
    simp only [Option.some.injEq] at h
    rw [heq, h]
  · cases h

theorem leaves_ws {p : List PathKey} : ∀ {vs : List (Tree α)} {bs : List α} {ws : List (Tree α)},
    vs.map (·.leafAt p) = bs.map some → vs.map (·.at p) = ws.map some → ws = bs.map Tree.leaf
  | [], [], [], _, _ => rfl
  | [], _ :: _, _, h, _ => by simp at h
  | [], [], _ :: _, _, h => by simp at h
  | _ :: _, [], _, h, _ => by simp at h
  | _ :: _, _ :: _, [], _, h => by simp at h
  | v :: vs, b :: bs, w :: ws, h, h' => by
    simp only [List.map_cons, List.cons.injEq] at h h' ⊢
    rw [leafAt_at h.1] at h'
    simp only [Option.some.injEq] at h'
    exact ⟨h'.1.symm, leaves_ws h.2 h'.2⟩

theorem asArray_leaves {N : Numpy} (conv : Tree (Arr N) → Py (Arr N)) (bs : List (Arr N)) :
    (bs.map Tree.leaf).mapM (asArray conv) = .ok bs := by
  apply py_mapM_of_map
  rw [List.map_map]
  rfl

theorem featureAt_of {p : List PathKey} : ∀ {vs : List (Tree α)} {bs : List α}, vs.map (·.leafAt p) = bs.map some →
    featureAt vs p = bs
  | [], [], _ => rfl
  | [], _ :: _, h => by simp at h
  | _ :: _, [], h => by simp at h
  | v :: vs, b :: bs, h => by
    simp only [List.map_cons, List.cons.injEq] at h
    simp only [featureAt, List.filterMap_cons, h.1, List.cons.injEq, true_and]
    exact featureAt_of h.2

theorem leaves_get {p : List PathKey} {vs : List (Tree α)} {bs : List α} (h : vs.map (·.leafAt p) = bs.map some) {k : Nat}
    {u : Tree α} {b : α} (hu : vs[k]? = some u) (hb : u.leafAt p = some b) : bs[k]? = some b := by
  have := congrArg (fun l => l[k]?) h
  simp only [List.getElem?_map, hu, Option.map_some, hb] at this
  cases hk : bs[k]? with
  | none => rw [hk] at this; cases this
  | some c => rw [hk] at this; simpa using this.symm

/-- Everything known about the features of elements with the same features. -/
theorem sameFeatures_at {v : Tree α} {vs : List (Tree α)} (h : SameFeatures (v :: vs)) :
    v.Ok ∧ (∀ u ∈ vs, v.same u = true) ∧ ∀ p a, v.leafAt p = some a →
      ∃ bs, (v :: vs).map (·.leafAt p) = (a :: bs).map some ∧ featureAt (v :: vs) p = a :: bs ∧
        ∀ ws, vs.map (·.at p) = ws.map some → ws = bs.map Tree.leaf := by
  obtain ⟨hok, hu⟩ := h v rfl
  refine ⟨hok, fun u hm => (hu u hm).1, fun p a ha => ?_⟩
  obtain ⟨bs, hb⟩ := leaves_of (vs := vs) (p := p) (fun u hm => (hu u hm).2 p (by rw [ha]; rfl))
  have hb' : (v :: vs).map (·.leafAt p) = (a :: bs).map some := by simp only [List.map_cons, ha, hb]
  exact ⟨bs, hb', featureAt_of hb', fun ws hw => leaves_ws hb hw⟩

theorem leafAt_of_mapN {f : α → List (Tree α) → Py γ} {v : Tree α} {vs : List (Tree α)} {r : Tree γ} (h : SameFeatures (v :: vs))
    (hr : v.mapN f vs = .ok r) : r.SameShape v ∧ ∀ p a, v.leafAt p = some a →
      ∃ bs y, (v :: vs).map (·.leafAt p) = (a :: bs).map some ∧ featureAt (v :: vs) p = a :: bs ∧
        f a (bs.map Tree.leaf) = .ok y ∧ r.leafAt p = some y := by
  obtain ⟨_, hs, hf⟩ := sameFeatures_at h
  obtain ⟨h1, h2⟩ := Tree.mapN_spec f v vs r hs hr
  refine ⟨h1, fun p a ha => ?_⟩
  obtain ⟨bs, hb, hb', hw⟩ := hf p a ha
  obtain ⟨ws, y, g1, g2, g3⟩ := h2 p a ha
  rw [hw ws g1] at g2
  exact ⟨bs, y, hb, hb', g2, g3⟩

theorem mapN_ok_features {f : α → List (Tree α) → Py γ} {v : Tree α} {vs : List (Tree α)} (h : SameFeatures (v :: vs))
    (hf : ∀ p a bs, v.leafAt p = some a → featureAt (v :: vs) p = a :: bs → ∃ y, f a (bs.map Tree.leaf) = .ok y) :
    ∃ r, v.mapN f vs = .ok r := by
  obtain ⟨hok, hs, hg⟩ := sameFeatures_at h
  apply Tree.mapN_ok f v vs hok hs
  intro p x ws hx hw
  obtain ⟨bs, _, hb', hw'⟩ := hg p x hx
  rw [hw' ws hw]
  exact hf p x bs hx hb'

theorem mapN_congr_features {f g : α → List (Tree α) → Py γ} {v : Tree α} {vs : List (Tree α)} (h : SameFeatures (v :: vs))
    (hf : ∀ p a bs, v.leafAt p = some a → featureAt (v :: vs) p = a :: bs → f a (bs.map Tree.leaf) = g a (bs.map Tree.leaf)) :
    v.mapN f vs = v.mapN g vs := by
  obtain ⟨hok, hs, hg⟩ := sameFeatures_at h
  apply Tree.mapN_congr f g v vs hok hs
  intro p x ws hx hw
  obtain ⟨bs, _, hb', hw'⟩ := hg p x hx
  rw [hw' ws hw]
  exact hf p x bs hx hb'

/-- A batch made by `make_batch`: at every path the features, cast to numpy's common type, are the rows. -/
theorem makeBatch_sound {N : Numpy} (L : N.Lawful) (conv : Tree (Arr N) → Py (Arr N)) {v : Tree (Arr N)}
    {vs : List (Tree (Arr N))} (h : SameFeatures (v :: vs)) {r : Tree (Arr N)} (hr : makeBatch conv false (v :: vs) = .ok r) :
    r.SameShape v ∧ ∀ p a, v.leafAt p = some a → ∃ bs c, (v :: vs).map (·.leafAt p) = (a :: bs).map some ∧
      featureAt (v :: vs) p = a :: bs ∧ r.leafAt p = some c ∧ (∀ b ∈ a :: bs, b.shape = a.shape) ∧
      N.resultType ((a :: bs).map (·.dtype)) = .ok c.dtype ∧ c = stacked a.shape c.dtype (a :: bs) := by
  cases vs with
  | nil =>
    simp only [makeBatch, Except.ok.injEq] at hr
    subst hr
    refine ⟨Tree.map_map _ _ v, fun p a ha => ⟨[], stacked a.shape a.dtype [a], ?_, ?_, ?_, ?_, ?_, rfl⟩⟩
    · simp only [List.map_cons, List.map_nil, ha]
    · simp [featureAt, ha]
    · rw [Tree.leafAt_map, ha]; simp only [Option.map_some, expandDims_eq L]
    · intro b hb; rw [List.mem_singleton.1 hb]
    · exact resultType_uniform L (by simp)
  | cons w ws =>
    simp only [makeBatch, Bool.false_eq_true, if_false] at hr
    obtain ⟨h1, h2⟩ := leafAt_of_mapN h hr
    refine ⟨h1, fun p a ha => ?_⟩
    obtain ⟨bs, c, g1, g2, g3, g4⟩ := h2 p a ha
    rw [asArray_leaves] at g3
    obtain ⟨e1, e2, e3⟩ := npStack_spec g3
    exact ⟨bs, c, g1, g2, g4, e1, e2, e3⟩

theorem makeBatch_ok {N : Numpy} (conv : Tree (Arr N) → Py (Arr N)) {v : Tree (Arr N)} {vs : List (Tree (Arr N))}
    (h : SameFeatures (v :: vs)) (hs : ∀ p, ∀ a ∈ featureAt (v :: vs) p, ∀ b ∈ featureAt (v :: vs) p, a.shape = b.shape)
    (hd : ∀ p, featureAt (v :: vs) p ≠ [] → ∃ d, N.resultType ((featureAt (v :: vs) p).map (·.dtype)) = .ok d) :
    ∃ r, makeBatch conv false (v :: vs) = .ok r := by
  cases vs with
  | nil => exact ⟨_, rfl⟩
  | cons w ws =>
    simp only [makeBatch, Bool.false_eq_true, if_false]
    apply mapN_ok_features h
    intro p a bs ha hf
    rw [asArray_leaves]
    obtain ⟨d, hd⟩ := hd p (by rw [hf]; simp)
    rw [hf] at hd
    exact ⟨_, npStack_ok (fun b hb => hs p b (by rw [hf]; exact hb) a (by rw [hf]; exact List.mem_cons_self ..)) hd⟩

end Grain
