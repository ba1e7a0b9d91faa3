import Verif.Iter.Multi
/-
Simulation for the zip iterator.
-/
namespace Grain

theorem minLen_spec {n : Nat} (hn : 0 < n) (as : Fin n → List α) :
    (∀ i, minLen as ≤ (as i).length) ∧ ∃ i, (as i).length = minLen as := by
  have hne : (List.finRange n).map (fun i => (as i).length) ≠ [] := by
    intro hc
    rw [List.map_eq_nil_iff] at hc
    have : (List.finRange n).length = 0 := by rw [hc]; rfl
    rw [List.length_finRange] at this
    omega
  obtain ⟨m, hm⟩ : ∃ m, ((List.finRange n).map (fun i => (as i).length)).min? = some m := by
    cases hh : ((List.finRange n).map (fun i => (as i).length)).min? with
    | none => exact absurd (List.min?_eq_none_iff.1 hh) hne
    | some m => exact ⟨m, rfl⟩
  have hml : minLen as = m := by simp [minLen, hm]
  rw [List.min?_eq_some_iff] at hm
  rw [hml]
  refine ⟨fun i => hm.2 _ (List.mem_map.2 ⟨i, List.mem_finRange i, rfl⟩), ?_⟩
  obtain ⟨i, _, hi⟩ := List.mem_map.1 hm.1
  exact ⟨i, hi⟩

theorem zipRow_eq {n : Nat} (as : Fin n → List α) (k : Nat) (hk : ∀ i, k < (as i).length) :
    zipRow as k = (List.finRange n).map (fun i => (as i)[k]'(hk i)) := by
  unfold zipRow
  rw [← List.filterMap_eq_map]
  congr 1
  funext i
  simp [hk i]

section
variable {n : Nat} {ps : Fin n → Iter α} {as : Fin n → List α} {ended : Bool}
  {At : ∀ i, (ps i).S → Nat → Prop} {Ck : ∀ i, (ps i).C → Nat → Prop}

/-- One full row. -/
theorem zipNext_item (h : ∀ i, Sim (ps i) ((as i).map Except.ok) ended (At i) (Ck i)) (strict : Bool)
    (s : ∀ i, (ps i).S) (m : Nat) (hk : ∀ i, m < (as i).length) (hs : ∀ i, At i (s i) m) :
    ∃ s', Ev (fun F => (zipIter strict ps).next F s = some (s', .item (zipRow as m))) ∧ ∀ i, At i (s' i) (m + 1) := by
  obtain ⟨s', e1, e2, _⟩ := nextAll_items h m hk (List.finRange n) s [] (List.nodup_finRange n) (fun i _ => hs i)
  refine ⟨s', e1.mono ?_, fun i => e2 i (List.mem_finRange i)⟩
  intro F e
  simp only [zipIter, e, Option.bind_eq_bind, Option.bind_some, List.nil_append, zipRow_eq as m hk]

theorem finRange_split {n : Nat} {pre post : List (Fin n)} {i : Fin n} (h : List.finRange n = pre ++ i :: post) :
    i.val = pre.length := by
  have h1 : (List.finRange n)[pre.length]? = some i := by rw [h]; simp
  have hlt : pre.length < (List.finRange n).length := by rw [h]; simp
  rw [List.getElem?_eq_getElem hlt, List.getElem_finRange] at h1
  simpa using (congrArg Fin.val (Option.some.inj h1)).symm
end

theorem zipIter_resumes {n : Nat} (hn : 0 < n) (strict : Bool) {ps : Fin n → Iter α} {as : Fin n → List α} {ended : Bool}
    (hp : ∀ i, Resumes (ps i) ((as i).map Except.ok) ended)
    (hs : strict = true → ended = true → ∀ i j, (as i).length = (as j).length) :
    Resumes (zipIter strict ps) ((zipStream as).map Except.ok) ended := by
  choose At Ck h using hp
  obtain ⟨hmin, i0, hi0⟩ := minLen_spec hn as
  have hlen : ((zipStream as).map (Except.ok (ε := Err))).length = minLen as := by simp [zipStream]
  refine ⟨fun s m => m ≤ minLen as ∧ ∀ i, ∃ q, At i (s i) q ∧ m ≤ q ∧ (m < minLen as → q = m),
    fun c m => m ≤ minLen as ∧ ∀ i, ∃ q, Ck i (c i) q ∧ m ≤ q ∧ (m < minLen as → q = m), ?_⟩
  refine { init := ⟨by omega, fun i => ⟨0, (h i).init, by omega, fun _ => rfl⟩⟩,
           bound := fun hs => (by rw [hlen]; exact hs.1), next_item := ?_, next_stop := ?_,
           get := ?_, set := ?_, ck_bound := fun hs => (by rw [hlen]; exact hs.1) }
  · rintro s m r ⟨_, hat⟩ hr
    have hm : m < minLen as := by have := getElem?_lt hr; omega
    have hr' : r = .ok (zipRow as m) := by
      rw [List.getElem?_map, zipStream, List.getElem?_map, List.getElem?_range hm] at hr
      simpa using hr.symm
    subst hr'
    have hat' : ∀ i, At i (s i) m := by
      intro i
      obtain ⟨q, h1, h2, h3⟩ := hat i
      rw [← h3 hm]; exact h1
    obtain ⟨s', e1, e2⟩ := zipNext_item h strict s m (fun i => by have := hmin i; omega) hat'
    exact ⟨s', e1, hm, fun i => ⟨m + 1, e2 i, Nat.le_refl _, fun _ => rfl⟩⟩
  · rintro s ⟨_, hat⟩ he
    subst he
    rw [hlen] at hat ⊢
    choose q hq using hat
    have hq0 : q i0 = (as i0).length := by
      have h1 : q i0 ≤ (as i0).length := by simpa using (h i0).bound (hq i0).1
      have := (hq i0).2.1
      omega
    obtain ⟨s', acc', pre, i, post, hsp, hqi, hpre, e1, e2⟩ := nextAll_stop h (List.finRange n) s q []
      (List.nodup_finRange n) (fun i => (hq i).1) ⟨i0, List.mem_finRange _, hq0⟩
    have hfin : ∀ s'' : (zipIter strict ps).S, (∀ j, ∃ r, q j ≤ r ∧ At j (s'' j) r) →
        (minLen as ≤ minLen as ∧ ∀ i, ∃ q, At i (s'' i) q ∧ minLen as ≤ q ∧ (minLen as < minLen as → q = minLen as)) := by
      intro s'' hs''
      refine ⟨Nat.le_refl _, fun j => ?_⟩
      obtain ⟨r, h1, h2⟩ := hs'' j
      exact ⟨r, h2, by have := (hq j).2.1; omega, fun hc => absurd hc (Nat.lt_irrefl _)⟩
    cases strict with
    | false =>
      refine ⟨s', e1.mono ?_, hfin s' (fun j => ⟨_, ?_, e2 j⟩)⟩
      · intro F e
        simp only [zipIter, e, Option.bind_eq_bind, Option.bind_some, Bool.false_eq_true, if_false]
      · split <;> omega
    | true =>
      have heq := hs rfl rfl
      have hall : ∀ j, q j = (as j).length := by
        intro j
        have h1 : q j ≤ (as j).length := by simpa using (h j).bound (hq j).1
        have h2 := (hq j).2.1
        have h3 := heq j i0
        omega
      have hpn : pre = [] := by
        cases hpp : pre with
        | nil => rfl
        | cons a l => exact absurd (hall a) (by have := hpre a (by rw [hpp]; exact List.mem_cons_self); omega)
      subst hpn
      have hi0' : i.val = 0 := finRange_split hsp
      obtain ⟨s'', e3, e4⟩ := zipCheckRest_stop h ((List.finRange n).drop 1) s' q (by simpa using e2)
        (fun j _ => hall j)
      refine ⟨s'', e1.mono₂ e3 ?_, hfin s'' (fun j => ⟨_, Nat.le_refl _, e4 j⟩)⟩
      intro F e e'
      simp only [zipIter, e, Option.bind_eq_bind, Option.bind_some, if_true, hi0', Nat.lt_irrefl, gt_iff_lt, if_false, e']
  · rintro s m ⟨hm, hat⟩
    refine ⟨⟨hm, fun i => ?_⟩, hm, fun i => ?_⟩ <;> obtain ⟨q, h1, h2⟩ := hat i
    · exact ⟨q, ((h i).get h1).1, h2⟩
    · exact ⟨q, ((h i).get h1).2, h2⟩
  · rintro s m' c m ⟨_, hat⟩ ⟨hm, hc⟩ hk
    rw [hlen] at hk
    choose q hq using hc
    obtain ⟨s', e1, e2, _⟩ := setAll_ok h c q (by
        intro i
        rcases hk with hk | hk
        · left
          rw [List.length_map, (hq i).2.2 hk]
          have := hmin i
          omega
        · exact Or.inr hk) (fun i => (hq i).1) (List.finRange n) s (fun i => ⟨_, (hat i).choose_spec.1⟩)
    refine ⟨s', e1.mono (fun F e => e), hm, fun i => ⟨q i, e2 i (List.mem_finRange i), (hq i).2⟩⟩

/-- In strict mode with parents of different lengths, the rows are followed by a `ValueError`. -/
theorem zipIter_strict_error {n : Nat} (hn : 0 < n) {ps : Fin n → Iter α} {as : Fin n → List α}
    (hp : ∀ i, Resumes (ps i) ((as i).map Except.ok) true) (hd : ∃ i j, (as i).length ≠ (as j).length) :
    Resumes (zipIter true ps) ((zipStream as).map Except.ok ++ [.error .valueError]) false := by
  choose At Ck h using hp
  obtain ⟨hmin, i0, hi0⟩ := minLen_spec hn as
  have hlen : ((zipStream as).map (Except.ok (ε := Err)) ++ [Except.error Err.valueError]).length = minLen as + 1 := by
    simp [zipStream]
  refine ⟨fun s m => m ≤ minLen as + 1 ∧ ∀ i, ∃ q, At i (s i) q ∧ (m ≤ minLen as → q = m),
    fun c m => m ≤ minLen as + 1 ∧ ∀ i, ∃ q, Ck i (c i) q ∧ (m ≤ minLen as → q = m), ?_⟩
  refine { init := ⟨by omega, fun i => ⟨0, (h i).init, fun _ => rfl⟩⟩,
           bound := fun hs => (by rw [hlen]; exact hs.1), next_item := ?_, next_stop := fun _ hc => (by cases hc),
           get := ?_, set := ?_, ck_bound := fun hs => (by rw [hlen]; exact hs.1) }
  · rintro s m r ⟨_, hat⟩ hr
    have hm : m ≤ minLen as := by have := getElem?_lt hr; omega
    have hat' : ∀ i, At i (s i) m := by
      intro i
      obtain ⟨q, h1, h2⟩ := hat i
      rw [← h2 hm]; exact h1
    by_cases hm' : m < minLen as
    · have hr' : r = .ok (zipRow as m) := by
        rw [List.getElem?_append_left (by simpa [zipStream] using hm'), List.getElem?_map, zipStream, List.getElem?_map,
          List.getElem?_range hm'] at hr
        simpa using hr.symm
      subst hr'
      obtain ⟨s', e1, e2⟩ := zipNext_item h true s m (fun i => by have := hmin i; omega) hat'
      exact ⟨s', e1, by omega, fun i => ⟨m + 1, e2 i, fun _ => rfl⟩⟩
    · have hme : m = minLen as := by omega
      have hr' : r = .error .valueError := by
        rw [List.getElem?_append_right (by simp [zipStream]; omega)] at hr
        simp [zipStream, hme] at hr
        exact hr.symm
      subst hr'
      obtain ⟨s', acc', pre, i, post, hsp, hqi, hpre, e1, e2⟩ := nextAll_stop h (List.finRange n) s (fun _ => m) []
        (List.nodup_finRange n) hat' ⟨i0, List.mem_finRange _, by omega⟩
      by_cases hi : i.val > 0
      · refine ⟨s', e1.mono ?_, by omega, fun j => ⟨_, e2 j, fun hc => by omega⟩⟩
        intro F e
        simp only [zipIter, e, Option.bind_eq_bind, Option.bind_some, if_true, if_pos hi, toRes]
      · have hpn : pre = [] := by
          have := finRange_split hsp
          exact List.eq_nil_of_length_eq_zero (by omega)
        subst hpn
        obtain ⟨s'', e3, e4⟩ := zipCheckRest_fail h ((List.finRange n).drop 1) s' (fun _ => m) (by simpa using e2)
          ((List.nodup_finRange n).sublist (List.drop_sublist _ _)) (by
            rw [hsp]
            simp only [List.nil_append, List.drop_succ_cons, List.drop_zero]
            by_contra hcon
            have hall : ∀ j, (as j).length = m := by
              intro j
              have hj : j ∈ List.finRange n := List.mem_finRange j
              rw [hsp, List.nil_append] at hj
              rcases List.mem_cons.1 hj with h1 | h1
              · subst h1; exact hqi.symm
              · have h2 := hmin j
                by_contra hne
                exact hcon ⟨j, h1, by omega⟩
            obtain ⟨a, b, hab⟩ := hd
            exact hab (by rw [hall a, hall b]))
        refine ⟨s'', e1.mono₂ e3 ?_, by omega, fun j => ⟨_, (e4 j).choose_spec, fun hc => by omega⟩⟩
        intro F e e'
        simp only [zipIter, e, Option.bind_eq_bind, Option.bind_some, if_true, if_neg hi, e', toRes]
  · rintro s m ⟨hm, hat⟩
    refine ⟨⟨hm, fun i => ?_⟩, hm, fun i => ?_⟩ <;> obtain ⟨q, h1, h2⟩ := hat i
    · exact ⟨q, ((h i).get h1).1, h2⟩
    · exact ⟨q, ((h i).get h1).2, h2⟩
  · rintro s m' c m ⟨_, hat⟩ ⟨hm, hc⟩ hk
    choose q hq using hc
    obtain ⟨s', e1, e2, _⟩ := setAll_ok h c q (fun i => Or.inr rfl) (fun i => (hq i).1) (List.finRange n) s
      (fun i => ⟨_, (hat i).choose_spec.1⟩)
    refine ⟨s', e1.mono (fun F e => e), hm, fun i => ⟨q i, e2 i (List.mem_finRange i), (hq i).2⟩⟩

end Grain
