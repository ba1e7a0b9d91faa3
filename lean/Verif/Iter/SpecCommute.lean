import Verif.Iter.Spec
/-
C86: when it makes no difference where a transformation is applied.
-/
namespace Grain

/-- Two iterators that no history of calls of `next`, `get_state` and `set_state` (into the used or a new object) can tell apart. -/
def SameIteration (a b : Iter α) : Prop :=
  ∀ ops outs, Ev (fun F => implRun a F a.init [] ops = some outs) ↔ Ev (fun F => implRun b F b.init [] ops = some outs)

end Grain
