import Verif.Model.Fx
import Verif.Model.Signal
import Verif.Proof.Bibo
import Mathlib.Tactic.Linarith
import Mathlib.Tactic.FieldSimp
import Mathlib.Tactic.LinearCombination
/-!
# The resonant filter (C74)
-/
namespace Verif
open Fx Filter Topology

namespace Fx
/-- A filter with given settings and any contents. -/
private noncomputable def Reso.at (f r y0 y1 : ℝ) : Reso ℝ := { Reso.mk' f r with y0 := y0, y1 := y1 }

private theorem Reso.at_step (f r y0 y1 s : ℝ) : ∃ z0 z1, ((Reso.at f r y0 y1).feed s).1 = Reso.at f r z0 z1 := ⟨_, _, rfl⟩

private theorem Reso.state (f r y0 y1 : ℝ) (x : ℕ → ℝ) (n : ℕ) :
    ∃ z0 z1, stateAt Reso.feed (Reso.at f r y0 y1) x n = Reso.at f r z0 z1 := by
  induction n with
  | zero => exact ⟨_, _, rfl⟩
  | succ n ih => obtain ⟨z0, z1, e⟩ := ih; rw [stateAt, e]; exact Reso.at_step ..

private theorem Reso.jury (f r : ℝ) (h0 : 0 < f) (h2 : f < 2) (hr0 : 0 ≤ r) (hr1 : r < 1) :
    Bibo.Jury (-(2 * (1 - f)) - r * f * (2 - f)) (1 - f * (2 - f) * (1 - r)) := by
  have p := mul_pos h0 (by linarith : 0 < 2 - f)
  refine ⟨?_, ?_, ?_⟩
  · nlinarith
  · nlinarith
  · nlinarith [mul_nonneg hr0 p.le, sq_nonneg (2 - f), mul_pos (by linarith : 0 < 2 - f) (by linarith : 0 < 2 - f)]

private theorem Reso.recur (f r y0 y1 : ℝ) (h1 : f ≠ 1) (x : ℕ → ℝ) (n : ℕ) :
    outAt Reso.feed (Reso.at f r y0 y1) x (n + 2) + (-(2 * (1 - f)) - r * f * (2 - f)) * outAt Reso.feed (Reso.at f r y0 y1) x (n + 1)
      + (1 - f * (2 - f) * (1 - r)) * outAt Reso.feed (Reso.at f r y0 y1) x n = f ^ 2 * x (n + 2) := by
  obtain ⟨z0, z1, e⟩ := Reso.state f r y0 y1 x n
  have h1' : 1 - f ≠ 0 := fun h => h1 (by linarith)
  have e1 : stateAt Reso.feed (Reso.at f r y0 y1) x (n + 1) = ((Reso.at f r z0 z1).feed (x n)).1 := by rw [stateAt, e]
  have e2 : stateAt Reso.feed (Reso.at f r y0 y1) x (n + 2)
      = (((Reso.at f r z0 z1).feed (x n)).1.feed (x (n + 1))).1 := by rw [stateAt, e1]
  simp only [outAt]
  rw [e2, e1, e]
  simp only [Reso.at, Reso.mk', Reso.feed]
  field_simp
  ring
end Fx

/-- **C74.** The resonant filter is stable for every frequency coefficient in (0, 2) other than 1 and every resonance in
[0, 1): from any contents, a bounded input gives a bounded output. -/
theorem C74_bounded (f r : ℝ) (h0 : 0 < f) (h2 : f < 2) (h1 : f ≠ 1) (hr0 : 0 ≤ r) (hr1 : r < 1) :
    ∃ K : ℝ, ∀ (y0 y1 B : ℝ) (x : ℕ → ℝ), (∀ n, |x n| ≤ B) →
      ∀ n, |outAt Reso.feed { Reso.mk' f r with y0 := y0, y1 := y1 } x n| ≤ K * (B + |y0| + |y1|) := by
  obtain ⟨K, hK, hb⟩ := Bibo.bibo (Reso.jury f r h0 h2 hr0 hr1)
  have h1' : 1 - f ≠ 0 := fun h => h1 (by linarith)
  -- one step enlarges the contents by at most a constant factor
  set g := r + r / (1 - f) with hg
  set M := 1 + 2 * (1 + f) * (2 + f * (2 + 2 * |g|)) with hM
  have hM1 : 1 ≤ M := by rw [hM]; have := abs_nonneg g; nlinarith [mul_nonneg h0.le this]
  have grow : ∀ y0 y1 s T : ℝ, |y0| ≤ T → |y1| ≤ T → |s| ≤ T →
      |((Reso.at f r y0 y1).feed s).1.y0| ≤ M * T ∧ |((Reso.at f r y0 y1).feed s).2| ≤ M * T := by
    intro y0 y1 s T a0 a1 as
    have hT : 0 ≤ T := (abs_nonneg _).trans a0
    have eg : (Reso.at f r y0 y1).fb = g := rfl
    have ng := abs_nonneg g
    have b1 : |s - y0 + g * (y0 - y1)| ≤ (2 + 2 * |g|) * T := by
      have t1 : |s - y0| ≤ 2 * T := (abs_sub _ _).trans (by linarith)
      have t2 : |y0 - y1| ≤ 2 * T := (abs_sub _ _).trans (by linarith)
      have t3 : |g * (y0 - y1)| ≤ |g| * (2 * T) := by rw [abs_mul]; exact mul_le_mul_of_nonneg_left t2 ng
      exact (abs_add_le _ _).trans (by nlinarith)
    have c1 : |y0 + f * (s - y0 + g * (y0 - y1))| ≤ (1 + f * (2 + 2 * |g|)) * T := by
      have t : |f * (s - y0 + g * (y0 - y1))| ≤ f * ((2 + 2 * |g|) * T) := by
        rw [abs_mul, abs_of_pos h0]; exact mul_le_mul_of_nonneg_left b1 h0.le
      exact (abs_add_le _ _).trans (by nlinarith)
    have q : 0 ≤ f * (2 + 2 * |g|) := by positivity
    refine ⟨?_, ?_⟩
    · have : ((Reso.at f r y0 y1).feed s).1.y0 = y0 + f * (s - y0 + g * (y0 - y1)) := rfl
      rw [this]
      refine c1.trans (mul_le_mul_of_nonneg_right ?_ hT)
      rw [hM]; nlinarith
    · have : ((Reso.at f r y0 y1).feed s).2 = y1 + f * ((y0 + f * (s - y0 + g * (y0 - y1))) - y1) := rfl
      rw [this]
      set z := y0 + f * (s - y0 + g * (y0 - y1))
      have t : |z - y1| ≤ (2 + f * (2 + 2 * |g|)) * T := (abs_sub _ _).trans (by nlinarith)
      have t2 : |f * (z - y1)| ≤ f * ((2 + f * (2 + 2 * |g|)) * T) := by
        rw [abs_mul, abs_of_pos h0]; exact mul_le_mul_of_nonneg_left t h0.le
      refine (abs_add_le _ _).trans ?_
      have e : M * T = T + 2 * (1 + f) * ((2 + f * (2 + 2 * |g|)) * T) := by rw [hM]; ring
      have w : 0 ≤ (2 + f * (2 + 2 * |g|)) * T := by positivity
      rw [e]; nlinarith
  refine ⟨K * (f ^ 2 + M + M * M), ?_⟩
  intro y0 y1 B x hx n
  have n0 := abs_nonneg y0
  have n1 := abs_nonneg y1
  have hB : 0 ≤ B := (abs_nonneg _).trans (hx 0)
  set T := B + |y0| + |y1| with hT
  have g0 := grow y0 y1 (x 0) T (by linarith) (by linarith) ((hx 0).trans (by linarith))
  have o1 : |outAt Reso.feed (Reso.at f r y0 y1) x 1| ≤ M * (M * T) := by
    have hTM : T ≤ M * T := by nlinarith
    exact (grow _ _ (x 1) (M * T) g0.1 g0.2 ((hx 1).trans (by linarith))).2
  have := hb (outAt Reso.feed (Reso.at f r y0 y1) x) _ (f ^ 2 * T) (Reso.recur f r y0 y1 h1 x) (fun n => by
    rw [abs_mul, abs_of_nonneg (sq_nonneg f)]
    exact mul_le_mul_of_nonneg_left ((hx _).trans (by linarith)) (sq_nonneg f)) n
  refine this.trans ?_
  have o0 : |outAt Reso.feed (Reso.at f r y0 y1) x 0| ≤ M * T := g0.2
  rw [show K * (f ^ 2 + M + M * M) * T = K * (f ^ 2 * T + M * T + M * (M * T)) by ring]
  exact mul_le_mul_of_nonneg_left (by linarith) hK

/-- **C74.** A constant input comes out unchanged in the long run (unit gain at DC), from any contents. -/
theorem C74_dc (f r y0 y1 c : ℝ) (h0 : 0 < f) (h2 : f < 2) (h1 : f ≠ 1) (hr0 : 0 ≤ r) (hr1 : r < 1) :
    Tendsto (outAt Reso.feed { Reso.mk' f r with y0 := y0, y1 := y1 } (fun _ => c)) atTop (𝓝 c) := by
  have := Bibo.decay (Reso.jury f r h0 h2 hr0 hr1)
    (fun n => outAt Reso.feed (Reso.at f r y0 y1) (fun _ => c) n - c) (by
      intro n
      have := Reso.recur f r y0 y1 h1 (fun _ => c) n
      linear_combination this)
  simpa [Reso.at] using this.add_const c

/-- **C74.** The filter forgets its contents: from two different contents the outputs for the same input approach each
other. -/
theorem C74_forgets (f r y0 y1 z0 z1 : ℝ) (x : ℕ → ℝ) (h0 : 0 < f) (h2 : f < 2) (h1 : f ≠ 1) (hr0 : 0 ≤ r) (hr1 : r < 1) :
    Tendsto (fun n => outAt Reso.feed { Reso.mk' f r with y0 := y0, y1 := y1 } x n
      - outAt Reso.feed { Reso.mk' f r with y0 := z0, y1 := z1 } x n) atTop (𝓝 0) := by
  refine Bibo.decay (Reso.jury f r h0 h2 hr0 hr1) _ (fun n => ?_)
  have e1 := Reso.recur f r y0 y1 h1 x n
  have e2 := Reso.recur f r z0 z1 h1 x n
  simp only [Reso.at] at e1 e2
  linear_combination e1 - e2

/-- **C74.** Changing the cut-off and the resonance of a running filter, in either order, gives the filter constructed
with the new values, with the old contents. -/
theorem C74_setters (f r f' r' y0 y1 : ℝ) :
    let s : Reso ℝ := { Reso.mk' f r with y0 := y0, y1 := y1 }
    (s.cutoff f').resonance r' = { Reso.mk' f' r' with y0 := y0, y1 := y1 } ∧
    (s.resonance r').cutoff f' = { Reso.mk' f' r' with y0 := y0, y1 := y1 } ∧
    s.cutoff f' = { Reso.mk' f' r with y0 := y0, y1 := y1 } ∧
    s.resonance r' = { Reso.mk' f r' with y0 := y0, y1 := y1 } := ⟨rfl, rfl, rfl, rfl⟩

/-- The hypotheses are met, for instance by `f = 1/2`, `r = 1/2`; the first outputs for a unit step: -/
example : outputs Reso.feed (Reso.mk' (1 / 2 : ℚ) (1 / 2)) [1, 1, 1] = [1 / 4, 19 / 32, 233 / 256] := by
  norm_num [outputs, Reso.feed, Reso.mk']

end Verif
