import Verif.Float.Model
/-
What a user expects of lengths and proportions, without reference to floating point.
-/
namespace Grain

/-- `x` is still to be visited when counting from `start` to `stop` by `step`: below `stop` when counting up, above it when
counting down.  This is the end condition of Python's `range`. -/
def Before (step x stop : ℤ) : Prop := if 0 < step then x < stop else stop < x

/-- `m` batches of size `b` are exactly enough for `n` elements. -/
def EnoughBatches (n b m : Nat) : Prop := n ≤ m * b ∧ ∀ m', n ≤ m' * b → m ≤ m'

/-- A number Python can hold as a float without change, neither huge nor tiny: every weight a user would write. -/
def Weight (v : ℚ) : Prop := fl v = v ∧ 2 ^ (-500 : ℤ) ≤ v ∧ v ≤ 2 ^ (500 : ℤ)

end Grain
