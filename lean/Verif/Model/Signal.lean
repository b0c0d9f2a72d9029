import Verif.Model.Stream
/-!
# Endless signals

A processor fed with a signal `x 0, x 1, …` that never ends; used for statements about what happens in the long run.
`outAt_outputs` says that this is the same thing as feeding the first samples as a list.
-/
namespace Verif
variable {σ ι ο : Type _} (step : σ → ι → σ × ο)

/-- The state after the first `n` samples. -/
def stateAt (s : σ) (x : Nat → ι) : Nat → σ
  | 0 => s
  | n + 1 => (step (stateAt s x n) (x n)).1

/-- The output for sample number `n`. -/
def outAt (s : σ) (x : Nat → ι) (n : Nat) : ο := (step (stateAt step s x n) (x n)).2

theorem stateAt_shift (s : σ) (x : Nat → ι) (n : Nat) :
    stateAt step s x (n + 1) = stateAt step (step s (x 0)).1 (fun k => x (k + 1)) n := by
  induction n with
  | zero => rfl
  | succ n ih => rw [stateAt, ih]; rfl

theorem stateAt_final (s : σ) (x : Nat → ι) (n : Nat) :
    stateAt step s x n = final step s ((List.range n).map x) := by
  induction n with
  | zero => rfl
  | succ n ih => rw [stateAt, ih, List.range_succ, List.map_append, final_append]; rfl

/-- Feeding the first `n` samples as a list gives the first `n` outputs. -/
theorem outAt_outputs (s : σ) (x : Nat → ι) (n : Nat) :
    outputs step s ((List.range n).map x) = (List.range n).map (outAt step s x) := by
  induction n with
  | zero => rfl
  | succ n ih =>
    rw [List.range_succ, List.map_append, outputs_append, ih, ← stateAt_final]
    simp [outputs, outAt]

end Verif
