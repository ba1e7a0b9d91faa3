import Verif.Json.Lemmas
/-
Saved states as texts: what comes back from a file, also from one that was not written completely.
-/
namespace Grain

/-- Reading a written value gives the value: `json.loads(json.dumps(v, indent=4)) == v` for every nesting and every
character. -/
theorem json_round_trip (v : Json) : jsonLoads (jsonDumps v) = some v := jsonLoads_dumps v

example : jsonDumps (.obj (.cons ['n', '"'] (.arr (.cons (.int (-12)) (.cons .null .nil))) .nil)) =
    "{\n    \"n\\\"\": [\n        -12,\n        null\n    ]\n}".toList := by decide +kernel

/-- A text that was cut off anywhere (a crash in the middle of writing a state) is refused. -/
theorem json_truncated_refused (ms : JMembers) (p q : List Char) (h : p ++ q = jsonDumps (.obj ms)) (hq : q ≠ []) :
    jsonLoads p = none := by
  cases hp : jsonLoads p with
  | none => rfl
  | some v =>
    exfalso
    rw [jsonLoads] at hp
    split at hp
    · cases hp
    · next v' r hr =>
      have hstart : ∃ u, jsonDumps (.obj ms) = '{' :: u := by
        cases ms <;> exact ⟨_, rfl⟩
      obtain ⟨u, hu⟩ := hstart
      cases p with
      | nil => simp [skipSpace, readVal] at hr
      | cons c p =>
        rw [hu, List.cons_append] at h
        injection h with hc h
        subst hc
        rw [skipSpace_cons (by decide)] at hr
        have hcl : JClosed v' r := by
          left
          intro n e
          subst e
          rw [readVal] at hr
          simp only at hr
          rw [if_neg (by decide), if_pos trivial] at hr
          split at hr
          · cases hr
          · split at hr
            · simp at hr
            · split at hr
              · simp at hr
              · cases hr
        have h1 := readVal_append q _ _ _ _ hr hcl (max (2 * ('{' :: p).length + 2) (Json.obj ms).need) (by omega)
        have h2 := readVal_dump (.obj ms) (max (2 * ('{' :: p).length + 2) (Json.obj ms).need) 0 [] (by omega) stops_nil
        rw [List.append_nil, ← jsonDumps, hu, ← h, ← List.cons_append, h1] at h2
        simp only [Option.some.injEq, Prod.mk.injEq] at h2
        have := h2.2
        simp at this
        exact hq this.2

example : jsonLoads "{\n    \"a\": 1".toList = none ∧
    "{\n    \"a\": 1".toList ++ "2\n}".toList = jsonDumps (.obj (.cons ['a'] (.int 12) .nil)) := by decide +kernel

mutual
/-- No tuples, and no `dict` with keys that are numbers. -/
def PyVal.Plain : PyVal → Prop
  | .list xs => xs.Plain
  | .tuple _ => False
  | .dict ms => ms.Plain
  | _ => True
/-- Items. -/
def PyVals.Plain : PyVals → Prop
  | .nil => True
  | .cons x xs => x.Plain ∧ xs.Plain
/-- Entries. -/
def PyDict.Plain : PyDict → Prop
  | .nil => True
  | .cons k x ms => (∃ s, k = .str s) ∧ x.Plain ∧ ms.Plain
end

mutual
theorem PyVal.ofJson_toJson : ∀ (v : PyVal), PyVal.ofJson v.toJson = v ↔ v.Plain
  | .none => by simp [PyVal.toJson, PyVal.ofJson, PyVal.Plain]
  | .bool b => by simp [PyVal.toJson, PyVal.ofJson, PyVal.Plain]
  | .int n => by simp [PyVal.toJson, PyVal.ofJson, PyVal.Plain]
  | .str s => by simp [PyVal.toJson, PyVal.ofJson, PyVal.Plain]
  | .list xs => by simp [PyVal.toJson, PyVal.ofJson, PyVal.Plain, PyVals.ofJson_toJson xs]
  | .tuple xs => by simp [PyVal.toJson, PyVal.ofJson, PyVal.Plain]
  | .dict ms => by simp [PyVal.toJson, PyVal.ofJson, PyVal.Plain, PyDict.ofJson_toJson ms]
theorem PyVals.ofJson_toJson : ∀ (xs : PyVals), PyVals.ofJson xs.toJson = xs ↔ xs.Plain
  | .nil => by simp [PyVals.toJson, PyVals.ofJson, PyVals.Plain]
  | .cons x xs => by
      simp [PyVals.toJson, PyVals.ofJson, PyVals.Plain, PyVals.ofJson_toJson xs, PyVal.ofJson_toJson x]
theorem PyDict.ofJson_toJson : ∀ (ms : PyDict), PyDict.ofJson ms.toJson = ms ↔ ms.Plain
  | .nil => by simp [PyDict.toJson, PyDict.ofJson, PyDict.Plain]
  | .cons (.str s) x ms => by
      simp [PyDict.toJson, PyDict.ofJson, PyDict.Plain, PyDict.ofJson_toJson ms, PyVal.ofJson_toJson x, PyKey.text]
  | .cons (.int n) x ms => by
      simp [PyDict.toJson, PyDict.ofJson, PyDict.Plain]
end

/-- A state comes back from its text unchanged exactly when it has no tuples and no numbers as keys. -/
theorem state_round_trip (v : PyVal) : textState (stateText v) = some v ↔ v.Plain := by
  rw [textState, stateText, json_round_trip, Option.map_some, Option.some.injEq, PyVal.ofJson_toJson]

/-- Example: the state of a prefetching iterator, and one with numbers as keys. -/
example : (PyVal.dict (.cons (.str "next_read".toList) (.int 5) .nil)).Plain ∧
    ¬ (PyVal.dict (.cons (.int 3) .none .nil)).Plain := by
  simp [PyVal.Plain, PyDict.Plain]

end Grain
