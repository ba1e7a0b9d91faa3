import Verif.Iter.Basic
import Verif.Iter.OneToOne
/-
A minimal source, used in the examples and witnesses: an iterator over a list whose checkpoint is the position.
-/
namespace Grain

/-- An iterator over the outcomes `xs` (what a user-defined source would be). -/
def listIter (xs : List (Py α)) : Iter α where
  S := Nat
  C := Nat
  init := 0
  next _ s :=
    match xs[s]? with
    | some (.ok a) => some (s + 1, .item a)
    | some (.error e) => some (s + 1, .fail e)
    | none => some (s, .stop)
  get s := (s, s)
  set _ _ c := some (c, none)

theorem listIter_resumes (xs : List (Py α)) : Resumes (listIter xs) xs true := by
  refine ⟨fun s n => s = n ∧ n ≤ xs.length, fun c n => c = n ∧ n ≤ xs.length, ?_⟩
  refine { init := ⟨rfl, by omega⟩, bound := fun h => h.2, next_item := ?_, next_stop := ?_,
           get := fun h => ⟨h, h⟩, set := fun _ h _ => ⟨_, Ev.of_forall (fun _ => rfl), h⟩, ck_bound := fun h => h.2 }
  · rintro s n r ⟨rfl, _⟩ hr
    refine ⟨Nat.succ s, Ev.of_forall (fun F => ?_), rfl, getElem?_lt hr⟩
    simp only [listIter]
    cases r <;> simp [hr, toRes]
  · rintro s ⟨rfl, _⟩ _
    refine ⟨(xs.length : Nat), Ev.of_forall (fun F => ?_), rfl, by omega⟩
    simp [listIter]

end Grain
