import Verif.Batch.Lemmas
/-
Lemmas for C63: `batch_and_pad`.
-/
namespace Grain

theorem TreeList.length_map (f : α → β) : ∀ t : TreeList α, (t.map f).length = t.length
  | .nil => rfl
  | .cons _ ts => by simp only [TreeList.map, TreeList.length, TreeList.length_map f ts]

theorem TreeDict.lookup_map (f : α → β) (s : String) : ∀ t : TreeDict α, (t.map f).lookup s = (t.lookup s).map (Tree.map f)
  | .nil => rfl
  | .cons key t kvs => by
    simp only [TreeDict.map, TreeDict.lookup, TreeDict.lookup_map f s kvs]
    split <;> rfl

mutual
theorem Tree.same_map (f : α → γ) (g : β → δ) : ∀ (a : Tree α) (b : Tree β), (a.map f).same (b.map g) = a.same b
  | .leaf _, b => by simp only [Tree.map, Tree.same]
  | .seq k ts, .leaf _ => by simp only [Tree.map, Tree.same]
  | .seq k ts, .dict _ _ => by simp only [Tree.map, Tree.same]
  | .dict k ts, .leaf _ => by simp only [Tree.map, Tree.same]
  | .dict k ts, .seq _ _ => by simp only [Tree.map, Tree.same]
  | .seq k ts, .seq k' us => by
    simp only [Tree.map, Tree.same, TreeList.length_map, TreeList.same_map f g ts us]
  | .dict k ts, .dict k' us => by
    simp only [Tree.map, Tree.same, TreeDict.sameKeys, TreeDict.keys_map, TreeDict.same_map f g ts us]
theorem TreeList.same_map (f : α → γ) (g : β → δ) : ∀ (a : TreeList α) (b : TreeList β), (a.map f).same (b.map g) = a.same b
  | .nil, b => by simp only [TreeList.map, TreeList.same]
  | .cons t ts, .nil => by simp only [TreeList.map, TreeList.same]
  | .cons t ts, .cons u us => by simp only [TreeList.map, TreeList.same, Tree.same_map f g t u, TreeList.same_map f g ts us]
theorem TreeDict.same_map (f : α → γ) (g : β → δ) : ∀ (a : TreeDict α) (b : TreeDict β), (a.map f).same (b.map g) = a.same b
  | .nil, b => by simp only [TreeDict.map, TreeDict.same]
  | .cons key t ts, us => by
    simp only [TreeDict.map, TreeDict.same, TreeDict.lookup_map]
    cases us.lookup key with
    | none => rfl
    | some u => simp only [Option.map_some, Tree.same_map f g t u, TreeDict.same_map f g ts us]
end

theorem TreeDict.lookup_mem : ∀ {t : TreeDict α} {s : String} {u : Tree α}, t.lookup s = some u → s ∈ t.keys
  | .nil, _, _, h => by cases h
  | .cons key t kvs, s, u, h => by
    simp only [TreeDict.lookup] at h
    split at h
    · rename_i hk; rw [hk]; exact List.mem_cons_self ..
    · exact List.mem_cons_of_mem _ (TreeDict.lookup_mem h)

theorem SeqKind.isInstance_refl (k : SeqKind) : k.isInstance k = true := by cases k <;> simp [SeqKind.isInstance]
theorem DictKind.isInstance_refl (k : DictKind) : k.isInstance k = true := by cases k <;> simp [DictKind.isInstance]

mutual
theorem Tree.same_refl : ∀ (a : Tree α), a.Ok → a.same a = true
  | .leaf _, _ => by simp only [Tree.same]
  | .seq k ts, h => by simp only [Tree.same, SeqKind.isInstance_refl, decide_true, Bool.true_and, TreeList.same_refl ts h]
  | .dict k ts, h => by
    have : ts.sameKeys ts = true := by simp [TreeDict.sameKeys]
    simp only [Tree.same, DictKind.isInstance_refl, this, Bool.true_and, TreeDict.same_refl ts ts h (fun _ _ e => e)]
theorem TreeList.same_refl : ∀ (a : TreeList α), a.Ok → a.same a = true
  | .nil, _ => by simp only [TreeList.same]
  | .cons t ts, h => by simp only [TreeList.Ok] at h; simp only [TreeList.same, Tree.same_refl t h.1, TreeList.same_refl ts h.2, Bool.and_self]
theorem TreeDict.same_refl : ∀ (a b : TreeDict α), a.Ok → (∀ s u, a.lookup s = some u → b.lookup s = some u) → a.same b = true
  | .nil, _, _, _ => by simp only [TreeDict.same]
  | .cons key t ts, b, h, hl => by
    simp only [TreeDict.Ok] at h
    have h1 := hl key t (by simp only [TreeDict.lookup, if_true])
    simp only [TreeDict.same, h1, Tree.same_refl t h.2.1, Bool.true_and]
    apply TreeDict.same_refl ts b h.2.2
    intro s u hs
    apply hl
    have hne : key ≠ s := fun e => h.1 (e ▸ TreeDict.lookup_mem hs)
    simp only [TreeDict.lookup, hne, if_false, hs]
end

theorem Tree.SameShape.same {a : Tree α} {b : Tree β} (hok : b.Ok) (h : a.SameShape b) : b.same a = true := by
  rw [← Tree.same_map (fun _ => ()) (fun _ => ()) b a, h]
  exact Tree.same_refl _ ((Tree.ok_map _ b).2 hok)

theorem flatMap_replicate {g : α → List β} {x : α} {m : Nat} {w : β} (h : g x = List.replicate m w) : ∀ n,
    (List.replicate n x).flatMap g = List.replicate (n * m) w
  | 0 => by simp
  | n + 1 => by
    rw [List.replicate_succ, List.flatMap_cons, flatMap_replicate h n, h, List.replicate_append_replicate, Nat.add_mul]
    congr 1; omega

/-- One row of padding. -/
def padRow {N : Numpy} (a : Arr N) (pv : N.V) : Arr N := ⟨a.shape, a.dtype, List.replicate (numel a.shape) pv⟩

theorem padRow_wf {N : Numpy} (a : Arr N) (pv : N.V) : (padRow a pv).WF := by simp [Arr.WF, padRow]

theorem sum_ones {N : Numpy} : ∀ (xs : List (Arr N)), ((xs.map expandDims).map (fun a => a.shape.headD 0)).sum = xs.length
  | [] => rfl
  | x :: xs => by
    simp only [List.map_cons, List.sum_cons, sum_ones xs, List.length_cons, expandDims, List.headD_cons]
    omega

/-- Concatenating the expanded arrays and the padding gives the array with the arrays and the rows of padding as rows. -/
theorem npConcat_spec {N : Numpy} {a : Arr N} {bs : List (Arr N)} {n : Nat} {pv : N.V} {c : Arr N}
    (h : npConcat (expandDims a :: (bs.map expandDims ++ [⟨n :: a.shape, a.dtype, List.replicate (numel (n :: a.shape)) pv⟩])) = .ok c) :
    (∀ b ∈ a :: bs, b.shape = a.shape) ∧ N.resultType ((a :: bs).map (·.dtype) ++ [a.dtype]) = .ok c.dtype ∧
      c = stacked a.shape c.dtype (a :: bs ++ List.replicate n (padRow a pv)) := by
  simp only [npConcat] at h
  split at h
  · rename_i hall
    obtain ⟨d, hd, h⟩ := py_bind_ok h
    cases h
    have hall := hall.2
    rw [List.all_eq_true] at hall
    refine ⟨fun b hb => ?_, ?_, ?_⟩
    · rcases List.mem_cons.1 hb with rfl | hb
      · rfl
      · have := hall (expandDims b) (List.mem_cons_of_mem _ (List.mem_append_left _ (List.mem_map_of_mem hb)))
        simp only [expandDims, List.tail_cons, Bool.and_eq_true] at this
        exact of_decide_eq_true this.2
    · simp only [List.map_cons, List.map_append, List.map_map, List.map_nil] at hd ⊢
      exact hd
    · have hsum : ((expandDims a :: (bs.map expandDims ++
          [(⟨n :: a.shape, a.dtype, List.replicate (numel (n :: a.shape)) pv⟩ : Arr N)])).map (fun a => a.shape.headD 0)).sum =
          (a :: bs ++ List.replicate n (padRow a pv)).length := by
        have := sum_ones (a :: bs)
        rw [List.map_cons, List.map_cons, List.sum_cons] at this
        rw [List.map_cons, List.map_append, List.sum_cons, List.sum_append, ← Nat.add_assoc, this]
        simp; omega
      rw [hsum]
      simp only [stacked, expandDims, List.tail_cons, Arr.mk.injEq, true_and]
      rw [List.flatMap_append, List.flatMap_cons, List.flatMap_cons, List.flatMap_append, List.append_assoc]
      congr 1
      congr 1
      · rw [List.flatMap_map]; rfl
      · rw [List.flatMap_cons, List.flatMap_nil, List.append_nil]
        rw [flatMap_replicate (w := N.cast a.dtype d pv) (m := numel a.shape)]
        · simp only [List.map_replicate, numel]
        · simp only [padRow, List.map_replicate]
  · cases h

theorem npConcat_ok {N : Numpy} {a : Arr N} {bs : List (Arr N)} {n : Nat} {pv : N.V} {d : N.D}
    (hs : ∀ b ∈ bs, b.shape = a.shape) (hd : N.resultType ((a :: bs).map (·.dtype) ++ [a.dtype]) = .ok d) :
    ∃ c, npConcat (expandDims a :: (bs.map expandDims ++ [⟨n :: a.shape, a.dtype, List.replicate (numel (n :: a.shape)) pv⟩])) = .ok c := by
  have hall : (expandDims a).shape ≠ [] ∧ (expandDims a :: (bs.map expandDims ++
      [(⟨n :: a.shape, a.dtype, List.replicate (numel (n :: a.shape)) pv⟩ : Arr N)])).all
      (fun x => decide (x.shape.length = (expandDims a).shape.length) && decide (x.shape.tail = (expandDims a).shape.tail)) = true := by
    refine ⟨by simp [expandDims], ?_⟩
    rw [List.all_eq_true]
    intro x hx
    rcases List.mem_cons.1 hx with rfl | hx
    · simp
    · rcases List.mem_append.1 hx with hx | hx
      · obtain ⟨b, hb, rfl⟩ := List.mem_map.1 hx
        simp [expandDims, hs b hb]
      · rw [List.mem_singleton.1 hx]; simp [expandDims]
  have hd' : N.resultType ((expandDims a :: (bs.map expandDims ++
      [(⟨n :: a.shape, a.dtype, List.replicate (numel (n :: a.shape)) pv⟩ : Arr N)])).map (·.dtype)) = .ok d := by
    rw [← hd]
    simp only [List.map_cons, List.map_append, List.map_map, List.map_nil, List.cons_append]
    rfl
  simp only [npConcat, hall, if_true, and_self, ne_eq, not_false_eq_true, hd']
  exact ⟨_, rfl⟩

theorem padLike_ok {N : Numpy} {n : Nat} {pad : N.P} {a c : Arr N} (h : padLike n pad (expandDims a) = .ok c) :
    ∃ pv, N.fill a.dtype pad = .ok pv ∧ c = ⟨n :: a.shape, a.dtype, List.replicate (numel (n :: a.shape)) pv⟩ := by
  simp only [padLike] at h
  obtain ⟨pv, h1, h2⟩ := py_bind_ok h
  cases h2
  exact ⟨pv, h1, rfl⟩

/-- The elements and the padding together have the same features. -/
theorem padded_features {N : Numpy} {v : Tree (Arr N)} {vs : List (Tree (Arr N))} (h : SameFeatures (v :: vs)) {padding : Tree (Arr N)}
    (hp : padding.SameShape (v.map expandDims)) (hl : ∀ p, (v.leafAt p).isSome → (padding.leafAt p).isSome) :
    SameFeatures (v.map expandDims :: (vs.map (Tree.map expandDims) ++ [padding])) := by
  intro v' hv'
  simp only [List.head?_cons, Option.mem_some_iff] at hv'
  subst hv'
  obtain ⟨hok, hu⟩ := h v rfl
  have hok' : (v.map expandDims).Ok := (Tree.ok_map _ v).2 hok
  refine ⟨hok', fun u hm => ?_⟩
  rcases List.mem_append.1 hm with hm | hm
  · obtain ⟨u, hu', rfl⟩ := List.mem_map.1 hm
    refine ⟨by rw [Tree.same_map]; exact (hu u hu').1, fun p hp => ?_⟩
    rw [Tree.leafAt_map, Option.isSome_map] at hp ⊢
    exact (hu u hu').2 p hp
  · rw [List.mem_singleton.1 hm]
    refine ⟨hp.same hok', fun p hp => hl p ?_⟩
    rwa [Tree.leafAt_map, Option.isSome_map] at hp

theorem padding_spec {N : Numpy} {v : Tree (Arr N)} {n : Nat} {pad : N.P} {padding : Tree (Arr N)}
    (h : (v.map expandDims).mapN (fun a _ => padLike n pad a) ([] : List (Tree (Arr N))) = .ok padding) :
    padding.SameShape (v.map expandDims) ∧ ∀ p a, v.leafAt p = some a → ∃ pv, N.fill a.dtype pad = .ok pv ∧
      padding.leafAt p = some ⟨n :: a.shape, a.dtype, List.replicate (numel (n :: a.shape)) pv⟩ := by
  obtain ⟨h1, h2⟩ := Tree.mapN_spec _ _ _ _ (by simp) h
  refine ⟨h1, fun p a ha => ?_⟩
  obtain ⟨ws, y, _, g2, g3⟩ := h2 p (expandDims a) (by rw [Tree.leafAt_map, ha]; rfl)
  obtain ⟨pv, e1, rfl⟩ := padLike_ok g2
  exact ⟨pv, e1, g3⟩

theorem map_some_cons {a : α} {l : List α} {x : β → Option α} {v : β} {vs : List β} (h : (v :: vs).map x = (a :: l).map some) :
    x v = some a ∧ vs.map x = l.map some := by
  simp only [List.map_cons, List.cons.injEq] at h
  exact h

theorem snoc_features {p : List PathKey} {vs : List (Tree α)} {padding : Tree α} {bs l : List α} {y : α}
    (hb : vs.map (·.leafAt p) = bs.map some) (hy : padding.leafAt p = some y)
    (h : (vs ++ [padding]).map (·.leafAt p) = l.map some) : l = bs ++ [y] := by
  rw [List.map_append, hb, List.map_cons, List.map_nil, hy] at h
  have : (bs ++ [y]).map some = l.map some := by rw [← h]; simp
  have := congrArg (List.filterMap id) this
  simpa [List.filterMap_map] using this.symm

/-- A padded batch: the elements and the rows of padding are its rows. -/
theorem batchAndPad_sound {N : Numpy} (conv : Tree (Arr N) → Py (Arr N)) {v : Tree (Arr N)} {vs : List (Tree (Arr N))}
    (h : SameFeatures (v :: vs)) {size : Nat} {pad : N.P} (hlt : (v :: vs).length < size) {r : Tree (Arr N)}
    (hr : batchAndPad conv size pad (v :: vs) = .ok r) :
    r.SameShape v ∧ ∀ p a, v.leafAt p = some a → ∃ bs c pv, (v :: vs).map (·.leafAt p) = (a :: bs).map some ∧
      featureAt (v :: vs) p = a :: bs ∧ r.leafAt p = some c ∧ (∀ b ∈ a :: bs, b.shape = a.shape) ∧
      N.fill a.dtype pad = .ok pv ∧ N.resultType ((a :: bs).map (·.dtype) ++ [a.dtype]) = .ok c.dtype ∧
      c = stacked a.shape c.dtype (a :: bs ++ List.replicate (size - (v :: vs).length) (padRow a pv)) := by
  simp only [batchAndPad, show ¬ size < (v :: vs).length by omega, show ¬ (v :: vs).length = size by omega, if_false] at hr
  obtain ⟨padding, hp, hr⟩ := py_bind_ok hr
  obtain ⟨p1, p2⟩ := padding_spec hp
  have hf := padded_features h p1 (fun p hp => by
    obtain ⟨a, ha⟩ := Option.isSome_iff_exists.1 hp
    obtain ⟨pv, _, e⟩ := p2 p a ha
    rw [e]; rfl)
  obtain ⟨r1, r2⟩ := leafAt_of_mapN hf hr
  refine ⟨r1.trans (Tree.map_map _ _ v), fun p a ha => ?_⟩
  obtain ⟨_, _, hg⟩ := sameFeatures_at h
  obtain ⟨bs, hb, hb', _⟩ := hg p a ha
  obtain ⟨pv, hpv, hpad⟩ := p2 p a ha
  obtain ⟨bs', c, g1, g2, g3, g4⟩ := r2 p (expandDims a) (by rw [Tree.leafAt_map, ha]; rfl)
  have hbs : bs' = bs.map expandDims ++ [⟨(size - (v :: vs).length) :: a.shape, a.dtype,
      List.replicate (numel ((size - (v :: vs).length) :: a.shape)) pv⟩] := by
    apply snoc_features (p := p) (vs := vs.map (Tree.map expandDims)) ?_ hpad (map_some_cons g1).2
    rw [List.map_map, show ((fun x : Tree (Arr N) => x.leafAt p) ∘ Tree.map expandDims) =
      (fun x : Tree (Arr N) => (x.leafAt p).map expandDims) from funext (fun x => Tree.leafAt_map _ x p)]
    have := congrArg (List.map (Option.map expandDims)) (map_some_cons hb).2
    simpa [List.map_map, Function.comp_def] using this
  rw [asArray_leaves, hbs] at g3
  obtain ⟨e1, e2, e3⟩ := npConcat_spec g3
  exact ⟨bs, c, pv, hb, hb', g4, e1, hpv, e2, e3⟩

theorem batchAndPad_ok {N : Numpy} (conv : Tree (Arr N) → Py (Arr N)) {v : Tree (Arr N)} {vs : List (Tree (Arr N))}
    (h : SameFeatures (v :: vs)) {size : Nat} {pad : N.P} (hlt : (v :: vs).length < size)
    (hs : ∀ p, ∀ a ∈ featureAt (v :: vs) p, ∀ b ∈ featureAt (v :: vs) p, a.shape = b.shape)
    (hfill : ∀ p, ∀ a ∈ featureAt (v :: vs) p, ∃ pv, N.fill a.dtype pad = .ok pv)
    (hd : ∀ p a bs, featureAt (v :: vs) p = a :: bs → ∃ d, N.resultType ((a :: bs).map (·.dtype) ++ [a.dtype]) = .ok d) :
    ∃ r, batchAndPad conv size pad (v :: vs) = .ok r := by
  obtain ⟨hok, _, hg⟩ := sameFeatures_at h
  simp only [batchAndPad, show ¬ size < (v :: vs).length by omega, show ¬ (v :: vs).length = size by omega, if_false]
  obtain ⟨padding, hp⟩ := Tree.mapN_ok (fun a (_ : List (Tree (Arr N))) => padLike (size - (v :: vs).length) pad a) (v.map expandDims) []
    ((Tree.ok_map _ v).2 hok) (by simp) (fun p x ws hx _ => by
      rw [Tree.leafAt_map] at hx
      cases ha : v.leafAt p with
      | none => rw [ha] at hx; cases hx
      | some a =>
        rw [ha] at hx; cases hx
        obtain ⟨bs, _, hb, _⟩ := hg p a ha
        obtain ⟨pv, hpv⟩ := hfill p a (by rw [hb]; exact List.mem_cons_self ..)
        refine ⟨⟨(size - (v :: vs).length) :: a.shape, a.dtype, List.replicate (numel ((size - (v :: vs).length) :: a.shape)) pv⟩, ?_⟩
        show (do
          let w ← N.fill a.dtype pad
          (.ok ⟨(size - (v :: vs).length) :: a.shape, a.dtype, List.replicate (numel ((size - (v :: vs).length) :: a.shape)) w⟩ : Py (Arr N))) = _
        rw [hpv]; rfl)
  rw [hp]
  obtain ⟨p1, p2⟩ := padding_spec hp
  have hf := padded_features h p1 (fun p hp => by
    obtain ⟨a, ha⟩ := Option.isSome_iff_exists.1 hp
    obtain ⟨pv, _, e⟩ := p2 p a ha
    rw [e]; rfl)
  apply mapN_ok_features hf
  intro p x bs' hx hfe
  rw [Tree.leafAt_map] at hx
  cases ha : v.leafAt p with
  | none => rw [ha] at hx; cases hx
  | some a =>
    rw [ha] at hx; cases hx
    obtain ⟨bs, hb, hb', _⟩ := hg p a ha
    obtain ⟨pv, hpv, hpad⟩ := p2 p a ha
    have hbs : bs' = bs.map expandDims ++ [⟨(size - (v :: vs).length) :: a.shape, a.dtype,
        List.replicate (numel ((size - (v :: vs).length) :: a.shape)) pv⟩] := by
      have hfe2 : featureAt (v.map expandDims :: (vs.map (Tree.map expandDims) ++ [padding])) p = expandDims a ::
          (bs.map expandDims ++ [⟨(size - (v :: vs).length) :: a.shape, a.dtype,
            List.replicate (numel ((size - (v :: vs).length) :: a.shape)) pv⟩]) := by
        apply featureAt_of
        have hb2 := congrArg (List.map (Option.map expandDims)) (map_some_cons hb).2
        simp only [List.map_cons, List.map_append, List.map_map, List.map_nil, Tree.leafAt_map, ha, Option.map_some, hpad,
          List.cons.injEq, true_and] at hb2 ⊢
        congr 1
        rw [show ((fun x : Tree (Arr N) => x.leafAt p) ∘ Tree.map expandDims) =
          (fun x : Tree (Arr N) => (x.leafAt p).map expandDims) from funext (fun x => Tree.leafAt_map _ x p)]
        simpa [Function.comp_def] using hb2
      rw [hfe2] at hfe
      exact (List.cons.inj hfe).2.symm
    rw [asArray_leaves, hbs]
    obtain ⟨d, hd⟩ := hd p a bs hb'
    exact npConcat_ok (fun b hbm => hs p b (by rw [hb']; exact List.mem_cons_of_mem _ hbm) a (by rw [hb']; exact List.mem_cons_self ..)) hd

end Grain
