import Verif.Model.Biquad
import Verif.Model.Signal
import Verif.Proof.Bibo
import Mathlib.Tactic.Linarith
import Mathlib.Tactic.FieldSimp
import Mathlib.Tactic.LinearCombination
import Mathlib.Analysis.Complex.Trigonometric
import Mathlib.Analysis.SpecialFunctions.Trigonometric.DerivHyp
/-!
# Biquad filters: difference equation (C58), frequency response (C59), stability (C60)
-/
set_option linter.unusedSimpArgs false
namespace Verif
open Filter Topology Biquad

/-! ## C58 -/
section
variable {K : Type} [CommRing K]

namespace Biquad
theorem feed_coefs (b : Biquad K) (s : K) : (b.feed s).1.a0 = b.a0 ∧ (b.feed s).1.a1 = b.a1 ∧ (b.feed s).1.a2 = b.a2 ∧
    (b.feed s).1.a3 = b.a3 ∧ (b.feed s).1.a4 = b.a4 := ⟨rfl, rfl, rfl, rfl, rfl⟩
end Biquad

/-- Invariant of a run: coefficients fixed, delays hold the last two inputs and outputs. -/
private theorem biquad_inv (a0 a1 a2 a3 a4 : K) (xs : List K) : ∀ n ≤ xs.length,
    final Biquad.feed (Biquad.mk' a0 a1 a2 a3 a4) (xs.take n) =
      ⟨a0, a1, a2, a3, a4, sig xs ((n : Int) - 1), sig xs ((n : Int) - 2),
        sig (outputs Biquad.feed (Biquad.mk' a0 a1 a2 a3 a4) xs) ((n : Int) - 1),
        sig (outputs Biquad.feed (Biquad.mk' a0 a1 a2 a3 a4) xs) ((n : Int) - 2)⟩ := by
  intro n
  induction n with
  | zero => intro _; simp [final, Biquad.mk', sig]
  | succ n ih =>
    intro hn
    have hn' : n < xs.length := by omega
    have e : sig (outputs Biquad.feed (Biquad.mk' a0 a1 a2 a3 a4) xs) n
        = (Biquad.feed (final Biquad.feed (Biquad.mk' a0 a1 a2 a3 a4) (xs.take n)) xs[n]).2 := by
      have := outputs_getElem? Biquad.feed (Biquad.mk' a0 a1 a2 a3 a4) xs n hn'
      simp only [sig]
      simp [this]
    rw [final_take_succ _ _ _ _ hn']
    have i1 : ((n + 1 : ℕ) : Int) - 1 = n := by push_cast; ring
    have i2 : ((n + 1 : ℕ) : Int) - 2 = (n : Int) - 1 := by push_cast; ring
    rw [i1, i2, e, sig_nat xs n hn', ih (by omega)]
    rfl

/-- **C58.** For every input signal the output satisfies the difference equation
`y[n] = a0 x[n] + a1 x[n-1] + a2 x[n-2] - a3 y[n-1] - a4 y[n-2]` (everything zero before the start). -/
theorem C58_difference_equation (a0 a1 a2 a3 a4 : K) (xs : List K) (n : Nat) (hn : n < xs.length) :
    let x := sig xs
    let y := sig (outputs Biquad.feed (Biquad.mk' a0 a1 a2 a3 a4) xs)
    y n = a0 * x n + a1 * x (n - 1) + a2 * x (n - 2) - a3 * y (n - 1) - a4 * y (n - 2) := by
  intro x y
  have e : y n = (Biquad.feed (final Biquad.feed (Biquad.mk' a0 a1 a2 a3 a4) (xs.take n)) xs[n]).2 := by
    have := outputs_getElem? Biquad.feed (Biquad.mk' a0 a1 a2 a3 a4) xs n hn
    simp only [y, sig]
    simp [this]
  rw [e, biquad_inv a0 a1 a2 a3 a4 xs n hn.le, ← sig_nat xs n hn]
  rfl

/-- **C58.** The filter is linear: the response to a combination of two signals is the same combination of the
responses. -/
theorem C58_linear (a0 a1 a2 a3 a4 c d : K) (xs ys : List K) (h : xs.length = ys.length) :
    let run := outputs Biquad.feed (Biquad.mk' a0 a1 a2 a3 a4)
    run (List.zipWith (fun x y => c * x + d * y) xs ys) = List.zipWith (fun x y => c * x + d * y) (run xs) (run ys) := by
  have key : ∀ (xs ys : List K) (u v w : Biquad K), xs.length = ys.length →
      u = ⟨a0, a1, a2, a3, a4, u.x1, u.x2, u.y1, u.y2⟩ → v = ⟨a0, a1, a2, a3, a4, v.x1, v.x2, v.y1, v.y2⟩ →
      w = ⟨a0, a1, a2, a3, a4, c * u.x1 + d * v.x1, c * u.x2 + d * v.x2, c * u.y1 + d * v.y1, c * u.y2 + d * v.y2⟩ →
      outputs Biquad.feed w (List.zipWith (fun x y => c * x + d * y) xs ys)
        = List.zipWith (fun x y => c * x + d * y) (outputs Biquad.feed u xs) (outputs Biquad.feed v ys) := by
    intro xs
    induction xs with
    | nil => intro ys u v w h _ _ _; simp [outputs]
    | cons x xs ih =>
      intro ys u v w h hu hv hw
      cases ys with
      | nil => simp at h
      | cons y ys =>
        simp only [List.zipWith_cons_cons, outputs]
        congr 1
        · rw [hw, hu, hv]; simp only [Biquad.feed]; ring
        · apply ih ys _ _ _ (by simpa using h)
          · rw [hu]; simp [Biquad.feed]
          · rw [hv]; simp [Biquad.feed]
          · rw [hw, hu, hv]; simp only [Biquad.feed, Biquad.mk.injEq, true_and, and_true]; ring
  intro run
  exact key xs ys _ _ _ h rfl rfl (by simp [Biquad.mk'])

/-- **C58.** The filter is time invariant: delaying the input by `k` samples delays the output by `k` samples. -/
theorem C58_time_invariant (a0 a1 a2 a3 a4 : K) (k : Nat) (xs : List K) :
    let run := outputs Biquad.feed (Biquad.mk' a0 a1 a2 a3 a4)
    run (List.replicate k 0 ++ xs) = List.replicate k 0 ++ run xs := by
  intro run
  induction k with
  | zero => simp
  | succ k ih =>
    simp only [List.replicate_succ, List.cons_append]
    rw [← ih]
    simp only [run, outputs]
    have e : ((Biquad.mk' a0 a1 a2 a3 a4).feed 0) = (Biquad.mk' a0 a1 a2 a3 a4, 0) := by
      simp [Biquad.feed, Biquad.mk']
    rw [e]

/-- **C58.** Reconfiguring a running filter keeps its delays: from then on the new coefficients apply to the old
history. -/
theorem C58_reconfigure (a0 a1 a2 a3 a4 b0 b1 b2 b3 b4 : K) (xs ys : List K) (n : Nat) (h1 : xs.length ≤ n)
    (hn : n < (xs ++ ys).length) :
    let f := Biquad.mk' a0 a1 a2 a3 a4
    let x := sig (xs ++ ys)
    let y := sig (outputs Biquad.feed f xs ++ outputs Biquad.feed ((final Biquad.feed f xs).config b0 b1 b2 b3 b4) ys)
    y n = b0 * x n + b1 * x (n - 1) + b2 * x (n - 2) - b3 * y (n - 1) - b4 * y (n - 2) := by
  intro f x y
  -- invariant after the reconfiguration
  have inv : ∀ m, xs.length ≤ m → m ≤ (xs ++ ys).length →
      final Biquad.feed ((final Biquad.feed f xs).config b0 b1 b2 b3 b4) ((xs ++ ys).take m |>.drop xs.length)
        = ⟨b0, b1, b2, b3, b4, x ((m : Int) - 1), x ((m : Int) - 2), y ((m : Int) - 1), y ((m : Int) - 2)⟩ := by
    have old : ∀ i : Int, i < xs.length → x i = sig xs i ∧ y i = sig (outputs Biquad.feed f xs) i := by
      intro i hi
      by_cases h0 : 0 ≤ i
      · obtain ⟨j, rfl⟩ := Int.eq_ofNat_of_zero_le h0
        have hj : j < xs.length := by omega
        simp only [x, y, sig]
        simp [List.getElem?_append_left, hj]
      · simp [x, y, sig, h0]
    intro m
    induction m with
    | zero =>
      intro h _
      have : xs = [] := by simpa using h
      subst this
      simp [final, sig, x, y, Biquad.config, f, Biquad.mk']
    | succ m ih =>
      intro h h'
      by_cases hm : xs.length = m + 1
      · rw [← hm, List.take_left' rfl, List.drop_length]
        have := biquad_inv a0 a1 a2 a3 a4 xs xs.length le_rfl
        rw [List.take_length] at this
        simp only [final, f, Biquad.config]
        rw [this, (old _ (by omega)).1, (old _ (by omega)).1, (old _ (by omega)).2, (old _ (by omega)).2]
      · have hm1 : xs.length ≤ m := by omega
        have hm2 : m < (xs ++ ys).length := by omega
        have hk : m - xs.length < ys.length := by simp at hm2; omega
        have et : ∀ m, xs.length ≤ m → ((xs ++ ys).take m).drop xs.length = ys.take (m - xs.length) := by
          intro m hm
          rw [List.take_append, List.take_of_length_le hm, List.drop_left' rfl]
        rw [et _ h]
        have ih := ih hm1 (by omega)
        rw [et _ hm1] at ih
        have : m + 1 - xs.length = (m - xs.length) + 1 := by omega
        rw [this, final_take_succ _ _ _ _ hk, ih]
        have ey : y m = (Biquad.feed (final Biquad.feed ((final Biquad.feed f xs).config b0 b1 b2 b3 b4)
            (ys.take (m - xs.length))) ys[m - xs.length]).2 := by
          have := outputs_getElem? Biquad.feed ((final Biquad.feed f xs).config b0 b1 b2 b3 b4) ys _ hk
          simp only [y, sig]
          simp [List.getElem?_append_right, hm1, this]
        have ex : x m = ys[m - xs.length] := by
          simp only [x]; rw [sig_nat _ _ hm2, List.getElem_append_right hm1]
        have i1 : ((m + 1 : ℕ) : Int) - 1 = m := by push_cast; ring
        have i2 : ((m + 1 : ℕ) : Int) - 2 = (m : Int) - 1 := by push_cast; ring
        rw [i1, i2, ey, ex, ih]
        rfl
  have hk : n - xs.length < ys.length := by simp at hn; omega
  have et : ((xs ++ ys).take n).drop xs.length = ys.take (n - xs.length) := by
    rw [List.take_append, List.take_of_length_le h1, List.drop_left' rfl]
  have i := inv n h1 hn.le
  rw [et] at i
  have ey : y n = (Biquad.feed (final Biquad.feed ((final Biquad.feed f xs).config b0 b1 b2 b3 b4)
      (ys.take (n - xs.length))) ys[n - xs.length]).2 := by
    have := outputs_getElem? Biquad.feed ((final Biquad.feed f xs).config b0 b1 b2 b3 b4) ys _ hk
    simp only [y, sig]
    simp [List.getElem?_append_right, h1, this]
  have ex : x n = ys[n - xs.length] := by
    simp only [x]; rw [sig_nat _ _ hn, List.getElem_append_right h1]
  rw [ey, i, ex]
  rfl
end

/-- The hypotheses of `C58_reconfigure` are met: two samples, a new setting, one more sample. -/
example : (outputs Biquad.feed (Biquad.mk' (1 : ℤ) 2 0 0 0) [1, 2]
    ++ outputs Biquad.feed ((final Biquad.feed (Biquad.mk' (1 : ℤ) 2 0 0 0) [1, 2]).config 0 3 5 1 0) [7]) = [1, 4, 7] := by
  decide


/-! ## Stability (C60) -/

/-- The settings for which the constructors make sense: a positive quality factor or bandwidth (the shelving filters
ignore theirs). -/
def Biquad.Kind.Valid : Biquad.Kind → Prop
  | .lowpass q | .highpass q | .bandpassCsgQ q | .bandpassCpgQ q | .allpass q | .notchQ q | .peakingQ _ q => 0 < q
  | .bandpassCsgBw bw | .bandpassCpgBw bw | .notchBw bw | .peakingBw _ bw => 0 < bw
  | .lowshelf _ _ | .highshelf _ _ => True

/-- The filter `b` with any contents of its delays. -/
def Biquad.withDelays (b : Biquad ℝ) (x1 x2 y1 y2 : ℝ) : Biquad ℝ := { b with x1 := x1, x2 := x2, y1 := y1, y2 := y2 }

namespace Biquad

theorem omega_range {f sps : ℝ} (hs : 0 < sps) (h0 : 0 < f) (h1 : f < sps / 2) : 0 < omega f sps ∧ omega f sps < Real.pi := by
  have hp := Real.pi_pos
  unfold omega
  refine ⟨by positivity, ?_⟩
  rw [div_lt_iff₀ hs]
  nlinarith

theorem alphaQ_pos {w q : ℝ} (h0 : 0 < w) (h1 : w < Real.pi) (hq : 0 < q) : 0 < alphaQ w q := by
  have := Real.sin_pos_of_pos_of_lt_pi h0 h1
  unfold alphaQ; positivity

theorem alphaBw_pos {w bw : ℝ} (h0 : 0 < w) (h1 : w < Real.pi) (hb : 0 < bw) : 0 < alphaBw w bw := by
  have hs := Real.sin_pos_of_pos_of_lt_pi h0 h1
  have hl : 0 < Real.log 2 := Real.log_pos (by norm_num)
  unfold alphaBw
  refine mul_pos hs (Real.sinh_pos_iff.2 ?_)
  positivity

theorem gainA_pos (db : ℝ) : 0 < gainA db := Real.rpow_pos_of_pos (by norm_num) _

theorem cos_lt_one' {w : ℝ} (h0 : 0 < w) (h1 : w < Real.pi) : Real.cos w < 1 ∧ -1 < Real.cos w := by
  have hs := Real.sin_pos_of_pos_of_lt_pi h0 h1
  have := Real.sin_sq_add_cos_sq w
  constructor <;> nlinarith

/-- The four inequalities that make a filter stable. -/
structure Coef.Stable (c : Coef) : Prop where
  pos : 0 < c.a0
  lt : c.a2 < c.a0
  dc : 0 < c.a0 + c.a1 + c.a2
  ny : 0 < c.a0 - c.a1 + c.a2

theorem Coef.Stable.jury {c : Coef} (h : c.Stable) : Bibo.Jury (c.a1 / c.a0) (c.a2 / c.a0) := by
  have p := h.pos
  refine ⟨by rw [div_lt_one p]; exact h.lt, ?_, ?_⟩
  · have : 1 + c.a1 / c.a0 + c.a2 / c.a0 = (c.a0 + c.a1 + c.a2) / c.a0 := by field_simp
    rw [this]; exact div_pos h.dc p
  · have : 1 - c.a1 / c.a0 + c.a2 / c.a0 = (c.a0 - c.a1 + c.a2) / c.a0 := by field_simp
    rw [this]; exact div_pos h.ny p

private theorem std (w α : ℝ) (h0 : 0 < w) (h1 : w < Real.pi) (hα : 0 < α) (c : Coef) (e0 : c.a0 = 1 + α)
    (e1 : c.a1 = -2 * Real.cos w) (e2 : c.a2 = 1 - α) : c.Stable := by
  obtain ⟨u, v⟩ := cos_lt_one' h0 h1
  constructor <;> rw [e0] <;> try rw [e2]
  · linarith
  · linarith
  · rw [e1]; linarith
  · rw [e1]; linarith

theorem Kind.stable (w : ℝ) (h0 : 0 < w) (h1 : w < Real.pi) (k : Kind) (hk : k.Valid) : (k.coef w).Stable := by
  obtain ⟨u, v⟩ := cos_lt_one' h0 h1
  have hs := Real.sin_pos_of_pos_of_lt_pi h0 h1
  cases k with
  | lowpass q => exact std w _ h0 h1 (alphaQ_pos h0 h1 hk) _ rfl rfl rfl
  | highpass q => exact std w _ h0 h1 (alphaQ_pos h0 h1 hk) _ rfl rfl rfl
  | bandpassCsgQ q => exact std w _ h0 h1 (alphaQ_pos h0 h1 hk) _ rfl rfl rfl
  | bandpassCsgBw b => exact std w _ h0 h1 (alphaBw_pos h0 h1 hk) _ rfl rfl rfl
  | bandpassCpgQ q => exact std w _ h0 h1 (alphaQ_pos h0 h1 hk) _ rfl rfl rfl
  | bandpassCpgBw b => exact std w _ h0 h1 (alphaBw_pos h0 h1 hk) _ rfl rfl rfl
  | allpass q => exact std w _ h0 h1 (alphaQ_pos h0 h1 hk) _ rfl rfl rfl
  | notchQ q => exact std w _ h0 h1 (alphaQ_pos h0 h1 hk) _ rfl rfl rfl
  | notchBw b => exact std w _ h0 h1 (alphaBw_pos h0 h1 hk) _ rfl rfl rfl
  | peakingQ db q => exact std w _ h0 h1 (div_pos (alphaQ_pos h0 h1 hk) (gainA_pos db)) _ rfl rfl rfl
  | peakingBw db b => exact std w _ h0 h1 (div_pos (alphaBw_pos h0 h1 hk) (gainA_pos db)) _ rfl rfl rfl
  | lowshelf db q =>
    have ha := gainA_pos db
    have hb : 0 < beta (gainA db) := Real.sqrt_pos.2 (by linarith)
    simp only [Kind.coef, Biquad.lowshelf]
    generalize gainA db = a at *
    generalize beta a = β at *
    generalize Real.cos w = c at *
    generalize Real.sin w = s at *
    have := mul_pos hb hs
    constructor <;> dsimp only <;> nlinarith
  | highshelf db q =>
    have ha := gainA_pos db
    have hb : 0 < beta (gainA db) := Real.sqrt_pos.2 (by linarith)
    simp only [Kind.coef, Biquad.highshelf]
    generalize gainA db = a at *
    generalize beta a = β at *
    generalize Real.cos w = c at *
    generalize Real.sin w = s at *
    have := mul_pos hb hs
    constructor <;> dsimp only <;> nlinarith

theorem stateAt_coefs (b : Biquad ℝ) (x : ℕ → ℝ) (n : ℕ) :
    (stateAt feed b x n).a0 = b.a0 ∧ (stateAt feed b x n).a1 = b.a1 ∧ (stateAt feed b x n).a2 = b.a2 ∧
    (stateAt feed b x n).a3 = b.a3 ∧ (stateAt feed b x n).a4 = b.a4 := by
  induction n with
  | zero => exact ⟨rfl, rfl, rfl, rfl, rfl⟩
  | succ n ih => exact ih

/-- The recurrence satisfied by the outputs, from any initial state. -/
theorem outAt_rec (b : Biquad ℝ) (x : ℕ → ℝ) (n : ℕ) :
    outAt feed b x (n + 2) + b.a3 * outAt feed b x (n + 1) + b.a4 * outAt feed b x n
      = b.a0 * x (n + 2) + b.a1 * x (n + 1) + b.a2 * x n := by
  obtain ⟨e0, e1, e2, e3, e4⟩ := stateAt_coefs b x (n + 2)
  have hy1 : (stateAt feed b x (n + 2)).y1 = outAt feed b x (n + 1) := rfl
  have hy2 : (stateAt feed b x (n + 2)).y2 = outAt feed b x n := rfl
  have hx1 : (stateAt feed b x (n + 2)).x1 = x (n + 1) := rfl
  have hx2 : (stateAt feed b x (n + 2)).x2 = x n := rfl
  have : outAt feed b x (n + 2) = b.a0 * x (n + 2) + b.a1 * x (n + 1) + b.a2 * x n
      - b.a3 * outAt feed b x (n + 1) - b.a4 * outAt feed b x n := by
    conv_lhs => simp only [outAt, feed]
    rw [e0, e1, e2, e3, e4, hy1, hy2, hx1, hx2]
  rw [this]; ring

/-- Two solutions of the recurrence of a stable filter approach each other. -/
theorem settles_of_rec (b : Biquad ℝ) (hj : Bibo.Jury b.a3 b.a4) (x y : ℕ → ℝ)
    (hy : ∀ n, y (n + 2) + b.a3 * y (n + 1) + b.a4 * y n = b.a0 * x (n + 2) + b.a1 * x (n + 1) + b.a2 * x n) :
    Tendsto (fun n => outAt feed b x n - y n) atTop (𝓝 0) := by
  apply Bibo.decay hj
  intro n
  have := outAt_rec b x n
  have := hy n
  linarith

end Biquad

/-- **C60.** Every filter, for every frequency below the Nyquist frequency, every positive quality factor or bandwidth
and every gain, is stable: from any contents of its delays, an input bounded by `B` gives an output bounded by a fixed
multiple of `B` and of those contents. -/
theorem C60_bounded (k : Kind) (f sps : ℝ) (hk : k.Valid) (hs : 0 < sps) (h0 : 0 < f) (h1 : f < sps / 2) :
    ∃ K : ℝ, ∀ (x1 x2 y1 y2 B : ℝ) (x : ℕ → ℝ), (∀ n, |x n| ≤ B) →
      ∀ n, |outAt Biquad.feed ((k.filter f sps).withDelays x1 x2 y1 y2) x n| ≤ K * (B + |x1| + |x2| + |y1| + |y2|) := by
  obtain ⟨hw0, hw1⟩ := omega_range hs h0 h1
  set b := k.filter f sps with hb
  have hj : Bibo.Jury b.a3 b.a4 := (Kind.stable _ hw0 hw1 k hk).jury
  obtain ⟨K, hK, hbd⟩ := Bibo.bibo hj
  -- a crude bound `C` for the first two outputs
  set S := |b.a0| + |b.a1| + |b.a2| + |b.a3| + |b.a4| with hS
  have hS0 : 0 ≤ S := by positivity
  refine ⟨K * (S + S + S * (1 + S)), ?_⟩
  intro x1 x2 y1 y2 B x hx n
  set d := b.withDelays x1 x2 y1 y2 with hd
  have hB : 0 ≤ B := le_trans (abs_nonneg _) (hx 0)
  set T := B + |x1| + |x2| + |y1| + |y2| with hT
  have five : ∀ p q r s t M : ℝ, |p| ≤ M → |q| ≤ M → |r| ≤ M → |s| ≤ M → |t| ≤ M →
      |b.a0 * p + b.a1 * q + b.a2 * r - b.a3 * s - b.a4 * t| ≤ S * M := by
    intro p q r s t M hp hq hr hs ht
    have a0 := mul_le_mul_of_nonneg_left hp (abs_nonneg b.a0)
    have a1 := mul_le_mul_of_nonneg_left hq (abs_nonneg b.a1)
    have a2 := mul_le_mul_of_nonneg_left hr (abs_nonneg b.a2)
    have a3 := mul_le_mul_of_nonneg_left hs (abs_nonneg b.a3)
    have a4 := mul_le_mul_of_nonneg_left ht (abs_nonneg b.a4)
    rw [← abs_mul] at a0 a1 a2 a3 a4
    have e : S * M = |b.a0| * M + |b.a1| * M + |b.a2| * M + |b.a3| * M + |b.a4| * M := by rw [hS]; ring
    rw [e]
    refine abs_le.2 ⟨?_, ?_⟩
    · have := (abs_le.1 a0).1; have := (abs_le.1 a1).1; have := (abs_le.1 a2).1; have := (abs_le.1 a3).2
      have := (abs_le.1 a4).2; linarith
    · have := (abs_le.1 a0).2; have := (abs_le.1 a1).2; have := (abs_le.1 a2).2; have := (abs_le.1 a3).1
      have := (abs_le.1 a4).1; linarith
  have nx1 := abs_nonneg x1
  have nx2 := abs_nonneg x2
  have ny1 := abs_nonneg y1
  have ny2 := abs_nonneg y2
  have hT0 : 0 ≤ T := by linarith
  have o0 : |outAt Biquad.feed d x 0| ≤ S * T := by
    refine five (x 0) x1 x2 y1 y2 T ?_ ?_ ?_ ?_ ?_ <;> [(have := hx 0); skip; skip; skip; skip] <;> linarith
  have o1 : |outAt Biquad.feed d x 1| ≤ S * ((1 + S) * T) := by
    have hST := mul_nonneg hS0 hT0
    refine five (x 1) (x 0) x1 (outAt Biquad.feed d x 0) y1 ((1 + S) * T) ?_ ?_ ?_ ?_ ?_ <;>
      [(have := hx 1); (have := hx 0); skip; skip; skip] <;> nlinarith
  have hu : ∀ n, |b.a0 * x (n + 2) + b.a1 * x (n + 1) + b.a2 * x n| ≤ S * T := by
    intro n
    have := five (x (n + 2)) (x (n + 1)) (x n) 0 0 T (le_trans (hx _) (by linarith)) (le_trans (hx _) (by linarith))
      (le_trans (hx _) (by linarith)) (by simpa using hT0) (by simpa using hT0)
    simpa using this
  have := hbd (outAt Biquad.feed d x) _ (S * T) (outAt_rec d x) hu n
  refine this.trans ?_
  rw [show K * (S + S + S * (1 + S)) * T = K * (S * T + S * T + S * ((1 + S) * T)) by ring]
  exact mul_le_mul_of_nonneg_left (by linarith) hK

/-- **C60.** A filter forgets: from two different contents of its delays, the outputs for the same input approach each
other.  (So changing the settings of a running filter leaves no permanent trace of the old ones.) -/
theorem C60_forgets (k : Kind) (f sps : ℝ) (hk : k.Valid) (hs : 0 < sps) (h0 : 0 < f) (h1 : f < sps / 2)
    (x1 x2 y1 y2 u1 u2 v1 v2 : ℝ) (x : ℕ → ℝ) :
    Tendsto (fun n => outAt Biquad.feed ((k.filter f sps).withDelays x1 x2 y1 y2) x n
      - outAt Biquad.feed ((k.filter f sps).withDelays u1 u2 v1 v2) x n) atTop (𝓝 0) := by
  obtain ⟨hw0, hw1⟩ := omega_range hs h0 h1
  have hj : Bibo.Jury (k.filter f sps).a3 (k.filter f sps).a4 := (Kind.stable _ hw0 hw1 k hk).jury
  exact settles_of_rec ((k.filter f sps).withDelays x1 x2 y1 y2) hj x _
    (outAt_rec ((k.filter f sps).withDelays u1 u2 v1 v2) x)

/-- **C60.** Reconfiguring a running filter gives exactly the newly constructed filter with the old delays, so the
statements above apply to it. -/
theorem C60_reconfigured (k : Kind) (f sps : ℝ) (b : Biquad ℝ) :
    (k.coef (omega f sps)).configure b = (k.filter f sps).withDelays b.x1 b.x2 b.y1 b.y2 := rfl

/-- The hypotheses of C59 and C60 are met, for instance by a low-pass of quality 0.7 at 1 kHz and 44.1 kHz. -/
example : (Kind.lowpass 0.7).Valid ∧ (0 : ℝ) < 44100 ∧ (0 : ℝ) < 1000 ∧ (1000 : ℝ) < 44100 / 2 := by
  refine ⟨by norm_num [Kind.Valid], ?_⟩; norm_num

/-! ## Frequency response (C59) -/

/-- In the long run the filter `b`, whatever its delays contain, answers the input `x` with the output `y`. -/
def Settles (b : Biquad ℝ) (x y : ℕ → ℝ) : Prop :=
  ∀ x1 x2 y1 y2, Tendsto (fun n => outAt Biquad.feed (b.withDelays x1 x2 y1 y2) x n - y n) atTop (𝓝 0)


namespace Biquad

theorem Coef.settles {c : Coef} (h : c.Stable) (x y : ℕ → ℝ)
    (hy : ∀ n, c.a0 * y (n + 2) + c.a1 * y (n + 1) + c.a2 * y n = c.b0 * x (n + 2) + c.b1 * x (n + 1) + c.b2 * x n) :
    Settles c.make x y := by
  intro x1 x2 y1 y2
  refine settles_of_rec (c.make.withDelays x1 x2 y1 y2) h.jury x y ?_
  intro n
  have p := h.pos.ne'
  have := hy n
  simp only [withDelays, Coef.make, mk']
  field_simp
  linarith

/-- The centre-frequency sinusoid. -/
theorem Coef.settles_sin {c : Coef} (h : c.Stable) (w φ P R : ℝ)
    (hP : c.a0 * (P * Real.cos w + R * Real.sin w) + c.a1 * P + c.a2 * (P * Real.cos w - R * Real.sin w)
      = (c.b0 + c.b2) * Real.cos w + c.b1)
    (hR : c.a0 * (R * Real.cos w - P * Real.sin w) + c.a1 * R + c.a2 * (R * Real.cos w + P * Real.sin w)
      = (c.b2 - c.b0) * Real.sin w) :
    Settles c.make (fun n => Real.cos (w * n + φ)) (fun n => P * Real.cos (w * n + φ) + R * Real.sin (w * n + φ)) := by
  refine Coef.settles h _ _ fun n => ?_
  have e2 : w * ((n + 2 : ℕ) : ℝ) + φ = (w * (n + 1 : ℕ) + φ) + w := by push_cast; ring
  have e0 : w * (n : ℝ) + φ = (w * (n + 1 : ℕ) + φ) - w := by push_cast; ring
  rw [e2, e0]
  generalize w * ((n + 1 : ℕ) : ℝ) + φ = u
  rw [Real.cos_add, Real.sin_add, Real.cos_sub, Real.sin_sub]
  linear_combination Real.cos u * hP + Real.sin u * hR

theorem Coef.settles_const {c : Coef} (h : c.Stable) (v g : ℝ)
    (hg : (c.a0 + c.a1 + c.a2) * g = c.b0 + c.b1 + c.b2) :
    Settles c.make (fun _ => v) (fun _ => g * v) :=
  Coef.settles h _ _ fun _ => by linear_combination v * hg

theorem Coef.settles_alt {c : Coef} (h : c.Stable) (v g : ℝ)
    (hg : (c.a0 - c.a1 + c.a2) * g = c.b0 - c.b1 + c.b2) :
    Settles c.make (fun n => v * (-1) ^ n) (fun n => g * (v * (-1) ^ n)) :=
  Coef.settles h _ _ fun n => by
    simp only [pow_succ]
    linear_combination v * (-1) ^ n * hg

end Biquad

section
variable (f sps : ℝ) (hs : 0 < sps) (h0 : 0 < f) (h1 : f < sps / 2)
include hs h0 h1

/-- **C59, low-pass.** A constant passes unchanged, an alternating signal (the Nyquist frequency) is removed, and a
sinusoid at the cut-off frequency is multiplied by the quality factor and delayed by a quarter of a period. -/
theorem C59_lowpass (q v φ : ℝ) (hq : 0 < q) :
    let F := (Kind.lowpass q).filter f sps
    Settles F (fun _ => v) (fun _ => v) ∧ Settles F (fun n => v * (-1) ^ n) (fun _ => 0) ∧
    Settles F (fun n => Real.cos (2 * Real.pi * f / sps * n + φ)) (fun n => q * Real.sin (2 * Real.pi * f / sps * n + φ)) := by
  obtain ⟨hw0, hw1⟩ := omega_range hs h0 h1
  have st := Kind.stable _ hw0 hw1 (.lowpass q) hq
  have hsin := Real.sin_pos_of_pos_of_lt_pi hw0 hw1
  have sc := Real.sin_sq_add_cos_sq (omega f sps)
  refine ⟨?_, ?_, ?_⟩
  · have := Coef.settles_const st v 1 (by simp only [Kind.coef, Biquad.lowpass]; ring)
    simp only [one_mul, zero_mul] at this; exact this
  · have := Coef.settles_alt st v 0 (by simp only [Kind.coef, Biquad.lowpass]; ring)
    simp only [one_mul, zero_mul] at this; exact this
  · have := Coef.settles_sin st (omega f sps) φ 0 q
      (by simp only [Kind.coef, Biquad.lowpass, alphaQ]; field_simp; linear_combination (2 * q) * sc)
      (by simp only [Kind.coef, Biquad.lowpass, alphaQ]; ring)
    simp only [one_mul, zero_mul, zero_add, add_zero, omega] at this; exact this

/-- **C59, high-pass.** A constant is removed, an alternating signal passes unchanged, and a sinusoid at the cut-off
frequency is multiplied by the quality factor and advanced by a quarter of a period. -/
theorem C59_highpass (q v φ : ℝ) (hq : 0 < q) :
    let F := (Kind.highpass q).filter f sps
    Settles F (fun _ => v) (fun _ => 0) ∧ Settles F (fun n => v * (-1) ^ n) (fun n => v * (-1) ^ n) ∧
    Settles F (fun n => Real.cos (2 * Real.pi * f / sps * n + φ)) (fun n => -q * Real.sin (2 * Real.pi * f / sps * n + φ)) := by
  obtain ⟨hw0, hw1⟩ := omega_range hs h0 h1
  have st := Kind.stable _ hw0 hw1 (.highpass q) hq
  have hsin := Real.sin_pos_of_pos_of_lt_pi hw0 hw1
  have sc := Real.sin_sq_add_cos_sq (omega f sps)
  refine ⟨?_, ?_, ?_⟩
  · have := Coef.settles_const st v 0 (by simp only [Kind.coef, Biquad.highpass]; ring)
    simp only [one_mul, zero_mul] at this; exact this
  · have := Coef.settles_alt st v 1 (by simp only [Kind.coef, Biquad.highpass]; ring)
    simp only [one_mul, zero_mul] at this; exact this
  · have := Coef.settles_sin st (omega f sps) φ 0 (-q)
      (by simp only [Kind.coef, Biquad.highpass, alphaQ]; field_simp; linear_combination (-2 * q) * sc)
      (by simp only [Kind.coef, Biquad.highpass, alphaQ]; ring)
    simp only [one_mul, zero_mul, zero_add, add_zero, omega] at this; exact this

/-- **C59, band-pass with constant skirt gain.** Constants and alternating signals are removed; a sinusoid at the centre
frequency is multiplied by the quality factor. -/
theorem C59_bandpass_csg (q v φ : ℝ) (hq : 0 < q) :
    let F := (Kind.bandpassCsgQ q).filter f sps
    Settles F (fun _ => v) (fun _ => 0) ∧ Settles F (fun n => v * (-1) ^ n) (fun _ => 0) ∧
    Settles F (fun n => Real.cos (2 * Real.pi * f / sps * n + φ)) (fun n => q * Real.cos (2 * Real.pi * f / sps * n + φ)) := by
  obtain ⟨hw0, hw1⟩ := omega_range hs h0 h1
  have st := Kind.stable _ hw0 hw1 (.bandpassCsgQ q) hq
  have hsin := Real.sin_pos_of_pos_of_lt_pi hw0 hw1
  refine ⟨?_, ?_, ?_⟩
  · have := Coef.settles_const st v 0 (by simp only [Kind.coef, Biquad.bandpassCsg]; ring)
    simp only [one_mul, zero_mul] at this; exact this
  · have := Coef.settles_alt st v 0 (by simp only [Kind.coef, Biquad.bandpassCsg]; ring)
    simp only [one_mul, zero_mul] at this; exact this
  · have := Coef.settles_sin st (omega f sps) φ q 0
      (by simp only [Kind.coef, Biquad.bandpassCsg, alphaQ]; ring)
      (by simp only [Kind.coef, Biquad.bandpassCsg, alphaQ]; field_simp; ring)
    simp only [one_mul, zero_mul, zero_add, add_zero, omega] at this; exact this

/-- **C59, band-pass with constant 0 dB peak gain, notch and all-pass.**  For both ways of giving the width.  Band-pass:
constants and alternating signals are removed, a sinusoid at the centre frequency passes unchanged.  Notch: the
converse. -/
theorem C59_bandpass_cpg_notch (k : Kind) (hk : k.Valid) (v φ : ℝ) :
    let F := k.filter f sps
    let s := fun n : ℕ => Real.cos (2 * Real.pi * f / sps * n + φ)
    (((∃ q, k = .bandpassCpgQ q) ∨ (∃ bw, k = .bandpassCpgBw bw)) →
      Settles F (fun _ => v) (fun _ => 0) ∧ Settles F (fun n => v * (-1) ^ n) (fun _ => 0) ∧ Settles F s s) ∧
    (((∃ q, k = .notchQ q) ∨ (∃ bw, k = .notchBw bw)) →
      Settles F (fun _ => v) (fun _ => v) ∧ Settles F (fun n => v * (-1) ^ n) (fun n => v * (-1) ^ n) ∧
      Settles F s (fun _ => 0)) := by
  obtain ⟨hw0, hw1⟩ := omega_range hs h0 h1
  have st := Kind.stable _ hw0 hw1 k hk
  have band : ∀ α, k.coef (omega f sps) = Biquad.bandpassCpg (omega f sps) α →
      Settles (k.filter f sps) (fun _ => v) (fun _ => 0) ∧ Settles (k.filter f sps) (fun n => v * (-1) ^ n) (fun _ => 0) ∧
      Settles (k.filter f sps) (fun n => Real.cos (2 * Real.pi * f / sps * n + φ))
        (fun n => Real.cos (2 * Real.pi * f / sps * n + φ)) := by
    intro α e
    refine ⟨?_, ?_, ?_⟩
    · have := Coef.settles_const st v 0 (by rw [e]; simp only [Biquad.bandpassCpg]; ring)
      simp only [one_mul, zero_mul] at this; exact this
    · have := Coef.settles_alt st v 0 (by rw [e]; simp only [Biquad.bandpassCpg]; ring)
      simp only [one_mul, zero_mul] at this; exact this
    · have := Coef.settles_sin st (omega f sps) φ 1 0
        (by rw [e]; simp only [Biquad.bandpassCpg]; ring) (by rw [e]; simp only [Biquad.bandpassCpg]; ring)
      simp only [one_mul, zero_mul, zero_add, add_zero, omega] at this; exact this
  have notch : ∀ α, k.coef (omega f sps) = Biquad.notch (omega f sps) α →
      Settles (k.filter f sps) (fun _ => v) (fun _ => v) ∧
      Settles (k.filter f sps) (fun n => v * (-1) ^ n) (fun n => v * (-1) ^ n) ∧
      Settles (k.filter f sps) (fun n => Real.cos (2 * Real.pi * f / sps * n + φ)) (fun _ => 0) := by
    intro α e
    refine ⟨?_, ?_, ?_⟩
    · have := Coef.settles_const st v 1 (by rw [e]; simp only [Biquad.notch]; ring)
      simp only [one_mul, zero_mul] at this; exact this
    · have := Coef.settles_alt st v 1 (by rw [e]; simp only [Biquad.notch]; ring)
      simp only [one_mul, zero_mul] at this; exact this
    · have := Coef.settles_sin st (omega f sps) φ 0 0
        (by rw [e]; simp only [Biquad.notch]; ring) (by rw [e]; simp only [Biquad.notch]; ring)
      simp only [one_mul, zero_mul, zero_add, add_zero, omega] at this; exact this
  refine ⟨?_, ?_⟩
  · rintro (⟨q, rfl⟩ | ⟨q, rfl⟩) <;> exact band _ rfl
  · rintro (⟨q, rfl⟩ | ⟨q, rfl⟩) <;> exact notch _ rfl

/-- **C59, peaking.** Constants and alternating signals pass unchanged; a sinusoid at the centre frequency is amplified
by the gain in decibels, `10 ^ (dB / 20)`. -/
theorem C59_peaking (k : Kind) (hk : k.Valid) (db v φ : ℝ)
    (hp : (∃ q, k = .peakingQ db q) ∨ (∃ bw, k = .peakingBw db bw)) :
    let F := k.filter f sps
    Settles F (fun _ => v) (fun _ => v) ∧ Settles F (fun n => v * (-1) ^ n) (fun n => v * (-1) ^ n) ∧
    Settles F (fun n => Real.cos (2 * Real.pi * f / sps * n + φ))
      (fun n => (10 : ℝ) ^ (db / 20) * Real.cos (2 * Real.pi * f / sps * n + φ)) := by
  obtain ⟨hw0, hw1⟩ := omega_range hs h0 h1
  have st := Kind.stable _ hw0 hw1 k hk
  have ha := (gainA_pos db).ne'
  have hg : (10 : ℝ) ^ (db / 20) = gainA db * gainA db := by
    unfold gainA; rw [← Real.rpow_add (by norm_num)]; congr 1; ring
  have key : ∀ α, k.coef (omega f sps) = Biquad.peaking (gainA db) (omega f sps) α →
    Settles (k.filter f sps) (fun _ => v) (fun _ => v) ∧
    Settles (k.filter f sps) (fun n => v * (-1) ^ n) (fun n => v * (-1) ^ n) ∧
    Settles (k.filter f sps) (fun n => Real.cos (2 * Real.pi * f / sps * n + φ))
      (fun n => (10 : ℝ) ^ (db / 20) * Real.cos (2 * Real.pi * f / sps * n + φ)) := by
    intro α e
    rw [hg]
    refine ⟨?_, ?_, ?_⟩
    · have := Coef.settles_const st v 1 (by rw [e]; simp only [Biquad.peaking]; ring)
      simp only [one_mul, zero_mul] at this; exact this
    · have := Coef.settles_alt st v 1 (by rw [e]; simp only [Biquad.peaking]; ring)
      simp only [one_mul, zero_mul] at this; exact this
    · have := Coef.settles_sin st (omega f sps) φ (gainA db * gainA db) 0
        (by rw [e]; simp only [Biquad.peaking]; field_simp; ring)
        (by rw [e]; simp only [Biquad.peaking]; field_simp; ring)
      simp only [one_mul, zero_mul, zero_add, add_zero, omega] at this; exact this
  rcases hp with ⟨q, rfl⟩ | ⟨q, rfl⟩ <;> exact key _ rfl

/-- **C59, shelves.** The low shelf amplifies constants by the gain in decibels and leaves alternating signals alone; the
high shelf does the opposite. -/
theorem C59_shelves (db q v : ℝ) :
    let L := (Kind.lowshelf db q).filter f sps
    let H := (Kind.highshelf db q).filter f sps
    (Settles L (fun _ => v) (fun _ => (10 : ℝ) ^ (db / 20) * v) ∧
      Settles L (fun n => v * (-1) ^ n) (fun n => v * (-1) ^ n)) ∧
    (Settles H (fun _ => v) (fun _ => v) ∧
      Settles H (fun n => v * (-1) ^ n) (fun n => (10 : ℝ) ^ (db / 20) * (v * (-1) ^ n))) := by
  obtain ⟨hw0, hw1⟩ := omega_range hs h0 h1
  have stL := Kind.stable _ hw0 hw1 (.lowshelf db q) trivial
  have stH := Kind.stable _ hw0 hw1 (.highshelf db q) trivial
  have hg : (10 : ℝ) ^ (db / 20) = gainA db * gainA db := by
    unfold gainA; rw [← Real.rpow_add (by norm_num)]; congr 1; ring
  rw [hg]
  refine ⟨⟨?_, ?_⟩, ?_, ?_⟩
  · exact Coef.settles_const stL v _ (by simp only [Kind.coef, Biquad.lowshelf]; ring)
  · have := Coef.settles_alt stL v 1 (by simp only [Kind.coef, Biquad.lowshelf]; ring)
    simp only [one_mul, zero_mul] at this; exact this
  · have := Coef.settles_const stH v 1 (by simp only [Kind.coef, Biquad.highshelf]; ring)
    simp only [one_mul, zero_mul] at this; exact this
  · exact Coef.settles_alt stH v _ (by simp only [Kind.coef, Biquad.highshelf]; ring)
end

/-- **C59, shelves.** The shelving filters accept a quality factor and ignore it: the slope of the shelf cannot be
changed. -/
theorem C59_shelf_quality_violation (f sps db q q' : ℝ) :
    (Kind.lowshelf db q).filter f sps = (Kind.lowshelf db q').filter f sps ∧
    (Kind.highshelf db q).filter f sps = (Kind.highshelf db q').filter f sps := ⟨rfl, rfl⟩


/-! ### The whole response -/

/-- Specification: the frequency response of the difference equation with the filter's coefficients, at `θ` radians per
sample. -/
noncomputable def Biquad.response (b : Biquad ℝ) (θ : ℝ) : ℂ :=
  let z := Complex.exp (-(θ * Complex.I))
  (b.a0 + b.a1 * z + b.a2 * z ^ 2) / (1 + b.a3 * z + b.a4 * z ^ 2)

namespace Biquad
open Complex in
theorem denom_ne {a1 a2 : ℝ} (hj : Bibo.Jury a1 a2) (z : ℂ) (hz : ‖z‖ = 1) : (1 + a1 * z + a2 * z ^ 2 : ℂ) ≠ 0 := by
  obtain ⟨α, β, e1, e2, hα, hβ⟩ := Bibo.roots hj
  have : (1 + a1 * z + a2 * z ^ 2 : ℂ) = (1 - α * z) * (1 - β * z) := by
    rw [← e2]; linear_combination z * e1
  rw [this]
  have ne : ∀ γ : ℂ, ‖γ‖ < 1 → 1 - γ * z ≠ 0 := by
    intro γ hγ h
    have : ‖γ * z‖ = 1 := by rw [← sub_eq_zero.1 h]; simp
    rw [norm_mul, hz, mul_one] at this
    linarith
  exact mul_ne_zero (ne _ hα) (ne _ hβ)

theorem norm_z (θ : ℝ) : ‖Complex.exp (-(θ * Complex.I))‖ = 1 := by
  rw [← neg_mul, ← Complex.ofReal_neg]; exact Complex.norm_exp_ofReal_mul_I _

open Complex in
theorem settles_response (b : Biquad ℝ) (hj : Bibo.Jury b.a3 b.a4) (θ φ : ℝ) :
    Settles b (fun n => Real.cos (θ * n + φ))
      (fun n => ‖b.response θ‖ * Real.cos (θ * n + φ + (b.response θ).arg)) := by
  intro x1 x2 y1 y2
  set H := b.response θ with hH
  have ey : ∀ t : ℝ, ‖H‖ * Real.cos (t + H.arg) = (H * exp (t * I)).re := by
    intro t
    conv_rhs => rw [← Complex.norm_mul_exp_arg_mul_I H]
    rw [mul_assoc, ← Complex.exp_add, Complex.re_ofReal_mul]
    rw [show (H.arg : ℂ) * I + t * I = ((t + H.arg : ℝ) : ℂ) * I by push_cast; ring, Complex.exp_ofReal_mul_I_re]
  have ex : ∀ t : ℝ, Real.cos t = (exp (t * I)).re := fun t => (Complex.exp_ofReal_mul_I_re t).symm
  refine settles_of_rec (b.withDelays x1 x2 y1 y2) hj _ _ ?_
  intro n
  simp only [withDelays]
  rw [ey, ey, ey, ex, ex, ex]
  simp only [← Complex.re_ofReal_mul, ← Complex.add_re]
  congr 1
  set z := exp (-(θ * I)) with hz
  set E := exp (((θ * (n + 2 : ℕ) + φ : ℝ) : ℂ) * I) with hE
  have e1 : exp (((θ * (n + 1 : ℕ) + φ : ℝ) : ℂ) * I) = E * z := by
    rw [hE, hz, ← Complex.exp_add]; congr 1; push_cast; ring
  have e0 : exp (((θ * n + φ : ℝ) : ℂ) * I) = E * z ^ 2 := by
    rw [hE, hz, ← Complex.exp_nat_mul, ← Complex.exp_add]; congr 1; push_cast; ring
  rw [e1, e0]
  have hd := denom_ne hj z (norm_z θ)
  have hHd : H * (1 + b.a3 * z + b.a4 * z ^ 2) = b.a0 + b.a1 * z + b.a2 * z ^ 2 := by
    rw [hH, response]; exact div_mul_cancel₀ _ hd
  linear_combination E * hHd

end Biquad

/-- **C59.** Every filter answers every sinusoid, in the long run and whatever its delays contain, with the sinusoid of
the same frequency, scaled by the modulus and shifted by the argument of the filter's frequency response. -/
theorem C59_frequency_response (k : Kind) (f sps θ φ : ℝ) (hk : k.Valid) (hs : 0 < sps) (h0 : 0 < f) (h1 : f < sps / 2) :
    let H := (k.filter f sps).response θ
    Settles (k.filter f sps) (fun n => Real.cos (θ * n + φ)) (fun n => ‖H‖ * Real.cos (θ * n + φ + H.arg)) := by
  obtain ⟨hw0, hw1⟩ := omega_range hs h0 h1
  exact settles_response _ (Kind.stable _ hw0 hw1 k hk).jury θ φ

/-- Specification: the analogue prototypes of the Audio-EQ Cookbook (normalised to the centre frequency 1), as functions
of the complex frequency `s`.  A bandwidth of `bw` octaves stands for the quality factor
`1 / (2 sinh (ln 2 / 2 * bw * w / sin w))` where `w` is the centre frequency in radians per sample.  The shelves have the fixed
quality factor `1 / √2`. -/
noncomputable def Biquad.Kind.analog (w : ℝ) : Kind → ℂ → ℂ
  | .lowpass q, s => 1 / (s ^ 2 + s / q + 1)
  | .highpass q, s => s ^ 2 / (s ^ 2 + s / q + 1)
  | .bandpassCsgQ q, s => s / (s ^ 2 + s / q + 1)
  | .bandpassCsgBw bw, s => s / (s ^ 2 + s / (1 / (2 * Real.sinh (Real.log 2 / 2 * bw * w / Real.sin w)) : ℝ) + 1)
  | .bandpassCpgQ q, s => (s / q) / (s ^ 2 + s / q + 1)
  | .bandpassCpgBw bw, s =>
    let q := ((1 / (2 * Real.sinh (Real.log 2 / 2 * bw * w / Real.sin w)) : ℝ) : ℂ)
    (s / q) / (s ^ 2 + s / q + 1)
  | .allpass q, s => (s ^ 2 - s / q + 1) / (s ^ 2 + s / q + 1)
  | .notchQ q, s => (s ^ 2 + 1) / (s ^ 2 + s / q + 1)
  | .notchBw bw, s => (s ^ 2 + 1) / (s ^ 2 + s / (1 / (2 * Real.sinh (Real.log 2 / 2 * bw * w / Real.sin w)) : ℝ) + 1)
  | .peakingQ db q, s =>
    let A := (((10 : ℝ) ^ (db / 40) : ℝ) : ℂ)
    (s ^ 2 + s * (A / q) + 1) / (s ^ 2 + s / (A * q) + 1)
  | .peakingBw db bw, s =>
    let A := (((10 : ℝ) ^ (db / 40) : ℝ) : ℂ)
    let q := ((1 / (2 * Real.sinh (Real.log 2 / 2 * bw * w / Real.sin w)) : ℝ) : ℂ)
    (s ^ 2 + s * (A / q) + 1) / (s ^ 2 + s / (A * q) + 1)
  | .lowshelf db _, s =>
    let A := (((10 : ℝ) ^ (db / 40) : ℝ) : ℂ)
    let r := ((Real.sqrt ((10 : ℝ) ^ (db / 40)) / (1 / Real.sqrt 2) : ℝ) : ℂ)
    A * ((s ^ 2 + r * s + A) / (A * s ^ 2 + r * s + 1))
  | .highshelf db _, s =>
    let A := (((10 : ℝ) ^ (db / 40) : ℝ) : ℂ)
    let r := ((Real.sqrt ((10 : ℝ) ^ (db / 40)) / (1 / Real.sqrt 2) : ℝ) : ℂ)
    A * ((A * s ^ 2 + r * s + 1) / (s ^ 2 + r * s + A))

namespace Biquad
open Complex

/-- Half-angle facts used for the bilinear transform: with `t = tan (θ/2)`, `z = exp (-iθ) = (1 - it) / (1 + it)`. -/
theorem exp_half (θ : ℝ) (h : Real.cos (θ / 2) ≠ 0) :
    exp (-(θ * I)) * (1 + I * Real.tan (θ / 2)) = 1 - I * Real.tan (θ / 2) := by
  have e : exp (-(θ * I)) = (Real.cos θ : ℂ) - Real.sin θ * I := by
    rw [← neg_mul, ← Complex.ofReal_neg, Complex.exp_mul_I, ← Complex.ofReal_cos, ← Complex.ofReal_sin, Real.cos_neg,
      Real.sin_neg]
    push_cast; ring
  have h2 : (θ : ℝ) = 2 * (θ / 2) := by ring
  have c2 : Real.cos θ = 2 * Real.cos (θ / 2) ^ 2 - 1 := by rw [← Real.cos_two_mul]; congr 1
  have s2 : Real.sin θ = 2 * Real.sin (θ / 2) * Real.cos (θ / 2) := by rw [← Real.sin_two_mul]; congr 1
  rw [e, c2, s2, Real.tan_eq_sin_div_cos]
  have hs := Real.sin_sq_add_cos_sq (θ / 2)
  generalize Real.cos (θ / 2) = c at *
  generalize Real.sin (θ / 2) = s at *
  have hc : (c : ℂ) ≠ 0 := by exact_mod_cast h
  have hs' : (s : ℂ) ^ 2 + (c : ℂ) ^ 2 = 1 := by exact_mod_cast hs
  push_cast
  field_simp
  linear_combination (2 * c) * hs' + (-2 * s ^ 2 * c) * Complex.I_sq

/-- The bilinear transform of a response, in terms of the six coefficients. -/
theorem Coef.response_eq {c : Coef} (h : c.Stable) (θ : ℝ) (hθ : Real.cos (θ / 2) ≠ 0) (T : ℝ) (s m nA dA : ℂ)
    (hT : s * T = I * Real.tan (θ / 2)) (hm : m ≠ 0)
    (hn : (c.b0 : ℂ) * (1 + s * T) ^ 2 + c.b1 * (1 - (s * T) ^ 2) + c.b2 * (1 - s * T) ^ 2 = m * nA)
    (hd : (c.a0 : ℂ) * (1 + s * T) ^ 2 + c.a1 * (1 - (s * T) ^ 2) + c.a2 * (1 - s * T) ^ 2 = m * dA) :
    c.make.response θ = nA / dA := by
  have e := exp_half θ hθ
  have p : (c.a0 : ℂ) ≠ 0 := by exact_mod_cast h.pos.ne'
  have hD := denom_ne h.jury _ (norm_z θ)
  simp only [response, Coef.make, mk']
  rw [hT] at hn hd
  set z := exp (-(θ * I))
  set u : ℂ := I * Real.tan (θ / 2)
  have hu : (1 + u) ≠ 0 := by
    intro h0
    have e : (1 + u).re = 1 := by simp only [u]; rw [Complex.add_re, Complex.I_mul_re, Complex.ofReal_im]; simp
    rw [h0] at e; simp at e
  have n2 : ((c.b0 : ℂ) + c.b1 * z + c.b2 * z ^ 2) * (1 + u) ^ 2 = m * nA := by
    rw [← hn]; linear_combination (c.b1 * (1 + u) + c.b2 * (z * (1 + u) + (1 - u))) * e
  have d2 : ((c.a0 : ℂ) + c.a1 * z + c.a2 * z ^ 2) * (1 + u) ^ 2 = m * dA := by
    rw [← hd]; linear_combination (c.a1 * (1 + u) + c.a2 * (z * (1 + u) + (1 - u))) * e
  rw [← mul_div_mul_left nA dA hm, ← n2, ← d2, mul_div_mul_right _ _ (pow_ne_zero 2 hu)]
  have en : (((c.b0 / c.a0 : ℝ) : ℂ) + ((c.b1 / c.a0 : ℝ) : ℂ) * z + ((c.b2 / c.a0 : ℝ) : ℂ) * z ^ 2)
      = (c.b0 + c.b1 * z + c.b2 * z ^ 2) / c.a0 := by push_cast; field_simp
  have ed : (1 + ((c.a1 / c.a0 : ℝ) : ℂ) * z + ((c.a2 / c.a0 : ℝ) : ℂ) * z ^ 2)
      = (c.a0 + c.a1 * z + c.a2 * z ^ 2) / c.a0 := by push_cast; field_simp
  rw [en, ed, div_div_div_cancel_right₀ p]

theorem half_tan (w : ℝ) (h0 : 0 < w) (h1 : w < Real.pi) : 0 < Real.tan (w / 2) ∧
    Real.cos w = (1 - Real.tan (w / 2) ^ 2) / (1 + Real.tan (w / 2) ^ 2) ∧
    Real.sin w = 2 * Real.tan (w / 2) / (1 + Real.tan (w / 2) ^ 2) := by
  have hc : 0 < Real.cos (w / 2) := Real.cos_pos_of_mem_Ioo ⟨by linarith, by linarith⟩
  have hs : 0 < Real.sin (w / 2) := Real.sin_pos_of_pos_of_lt_pi (by linarith) (by linarith)
  have c2 : Real.cos w = 2 * Real.cos (w / 2) ^ 2 - 1 := by rw [← Real.cos_two_mul]; congr 1; ring
  have s2 : Real.sin w = 2 * Real.sin (w / 2) * Real.cos (w / 2) := by rw [← Real.sin_two_mul]; congr 1; ring
  have sc := Real.sin_sq_add_cos_sq (w / 2)
  rw [Real.tan_eq_sin_div_cos, c2, s2]
  generalize Real.cos (w / 2) = c at *
  generalize Real.sin (w / 2) = s at *
  have e : c ^ 2 + s ^ 2 = 1 := by linarith
  refine ⟨div_pos hs hc, ?_, ?_⟩
  · field_simp
    rw [e]
    nlinarith
  · field_simp
    rw [e]

theorem alphaBw_eq (w bw : ℝ) :
    alphaBw w bw = alphaQ w (1 / (2 * Real.sinh (Real.log 2 / 2 * bw * w / Real.sin w))) := by
  unfold alphaBw alphaQ
  rw [mul_one_div, div_div_eq_mul_div]
  ring

end Biquad

/-- **C59.** The frequency response of every filter is the bilinear transform of its analogue prototype from the
Audio-EQ Cookbook: the response at `θ` radians per sample is that of the prototype at the frequency
`tan (θ/2) / tan (ω/2)`, where `ω` is the centre frequency in radians per sample. -/
theorem C59_cookbook (k : Kind) (f sps θ : ℝ) (hk : k.Valid) (hs : 0 < sps) (h0 : 0 < f) (h1 : f < sps / 2)
    (hθ0 : 0 ≤ θ) (hθ1 : θ < Real.pi) :
    let ω := 2 * Real.pi * f / sps
    (k.filter f sps).response θ = k.analog ω (Complex.I * Real.tan (θ / 2) / Real.tan (ω / 2)) := by
  intro ω
  obtain ⟨hw0, hw1⟩ := omega_range hs h0 h1
  have st := Kind.stable _ hw0 hw1 k hk
  have hω : ω = omega f sps := rfl
  rw [Kind.filter, ← hω]
  rw [← hω] at hw0 hw1 st
  have hc : Real.cos (θ / 2) ≠ 0 := (Real.cos_pos_of_mem_Ioo ⟨by linarith [Real.pi_pos], by linarith⟩).ne'
  obtain ⟨hT, ec, es⟩ := half_tan ω hw0 hw1
  set T := Real.tan (ω / 2) with hTd
  have hT1 : (T : ℂ) ≠ 0 := by exact_mod_cast hT.ne'
  have hT2 : (1 + (T : ℂ) ^ 2) ≠ 0 := by
    have : (1 + T ^ 2 : ℝ) ≠ 0 := by positivity
    exact_mod_cast this
  obtain ⟨s, hsd⟩ : ∃ s : ℂ, s = Complex.I * Real.tan (θ / 2) / T := ⟨_, rfl⟩
  rw [← hsd]
  have hsT : s * T = Complex.I * Real.tan (θ / 2) := by rw [hsd]; exact div_mul_cancel₀ _ hT1
  clear_value T
  have hm : (4 * (T : ℂ) ^ 2 / (1 + (T : ℂ) ^ 2)) ≠ 0 := div_ne_zero (mul_ne_zero (by norm_num) (pow_ne_zero 2 hT1)) hT2
  have hm2 : (8 * (T : ℂ) ^ 2 / (1 + (T : ℂ) ^ 2)) ≠ 0 := div_ne_zero (mul_ne_zero (by norm_num) (pow_ne_zero 2 hT1)) hT2
  have hbw : ∀ bw, 0 < bw → 0 < 1 / (2 * Real.sinh (Real.log 2 / 2 * bw * ω / Real.sin ω)) := by
    intro bw hb
    have hsn := Real.sin_pos_of_pos_of_lt_pi hw0 hw1
    have hl : 0 < Real.log 2 := Real.log_pos (by norm_num)
    have : 0 < Real.sinh (Real.log 2 / 2 * bw * ω / Real.sin ω) := Real.sinh_pos_iff.2 (by positivity)
    positivity
  -- the denominators of all but the shelves
  have den : ∀ (q : ℝ), q ≠ 0 → ((1 + alphaQ ω q : ℝ) : ℂ) * (1 + s * T) ^ 2
      + ((-2 * Real.cos ω : ℝ) : ℂ) * (1 - (s * T) ^ 2) + ((1 - alphaQ ω q : ℝ) : ℂ) * (1 - s * T) ^ 2
      = 4 * (T : ℂ) ^ 2 / (1 + (T : ℂ) ^ 2) * (s ^ 2 + s / q + 1) := by
    intro q hq
    have hq' : (q : ℂ) ≠ 0 := by exact_mod_cast hq
    simp only [alphaQ]
    rw [ec, es]
    push_cast
    field_simp
    ring
  have csg : ∀ q : ℝ, 0 < q → (Biquad.bandpassCsg ω (alphaQ ω q)).Stable →
      (Biquad.bandpassCsg ω (alphaQ ω q)).make.response θ = s /
        (s ^ 2 + s / q + 1) := by
    intro q hq st
    refine Coef.response_eq st θ hc T s _ _ _ hsT hm ?_ (den q hq.ne')
    simp only [Biquad.bandpassCsg, alphaQ]
    rw [es]; push_cast; field_simp; ring
  have cpg : ∀ q : ℝ, 0 < q → (Biquad.bandpassCpg ω (alphaQ ω q)).Stable →
      (Biquad.bandpassCpg ω (alphaQ ω q)).make.response θ = (s / q) /
        (s ^ 2 + s / q + 1) := by
    intro q hq st
    have hq' : (q : ℂ) ≠ 0 := by exact_mod_cast hq.ne'
    refine Coef.response_eq st θ hc T s _ _ _ hsT hm ?_ (den q hq.ne')
    simp only [Biquad.bandpassCpg, alphaQ]
    rw [es]; push_cast; field_simp; ring
  have nch : ∀ q : ℝ, 0 < q → (Biquad.notch ω (alphaQ ω q)).Stable →
      (Biquad.notch ω (alphaQ ω q)).make.response θ = (s ^ 2 + 1) /
        (s ^ 2 + s / q + 1) := by
    intro q hq st
    refine Coef.response_eq st θ hc T s _ _ _ hsT hm ?_ (den q hq.ne')
    simp only [Biquad.notch]
    rw [ec]; push_cast; field_simp; ring
  have pk : ∀ db q : ℝ, 0 < q → (Biquad.peaking (gainA db) ω (alphaQ ω q)).Stable →
      (Biquad.peaking (gainA db) ω (alphaQ ω q)).make.response θ =
        (s ^ 2 + s * ((gainA db : ℂ) / q) + 1) /
        (s ^ 2 + s / ((gainA db : ℂ) * q) + 1) := by
    intro db q hq st
    have hq' : (q : ℂ) ≠ 0 := by exact_mod_cast hq.ne'
    have hA : (gainA db : ℂ) ≠ 0 := by exact_mod_cast (gainA_pos db).ne'
    refine Coef.response_eq st θ hc T s _ _ _ hsT hm ?_ ?_ <;> simp only [Biquad.peaking, alphaQ] <;>
      rw [ec, es] <;> push_cast <;> field_simp <;> ring
  have shelf : ∀ db : ℝ, Real.sqrt ((10 : ℝ) ^ (db / 40)) / (1 / Real.sqrt 2) = beta (gainA db) := by
    intro db
    unfold beta gainA
    rw [div_div_eq_mul_div, div_one, ← Real.sqrt_mul (by positivity)]
    congr 1; ring
  cases k with
  | lowpass q =>
    refine Coef.response_eq st θ hc T s _ _ _ hsT hm ?_ (den q (ne_of_gt hk))
    simp only [Kind.coef, Biquad.lowpass]
    rw [ec]; push_cast; field_simp; ring
  | highpass q =>
    refine Coef.response_eq st θ hc T s _ _ _ hsT hm ?_ (den q (ne_of_gt hk))
    simp only [Kind.coef, Biquad.highpass]
    rw [ec]; push_cast; field_simp; ring
  | bandpassCsgQ q => exact csg q hk st
  | bandpassCsgBw bw =>
    simp only [Kind.coef, alphaBw_eq] at st ⊢
    exact csg _ (hbw bw hk) st
  | bandpassCpgQ q => exact cpg q hk st
  | bandpassCpgBw bw =>
    simp only [Kind.coef, alphaBw_eq] at st ⊢
    exact cpg _ (hbw bw hk) st
  | allpass q =>
    have hq' : (q : ℂ) ≠ 0 := by exact_mod_cast (ne_of_gt hk : q ≠ 0)
    refine Coef.response_eq st θ hc T s _ _ _ hsT hm ?_ (den q (ne_of_gt hk))
    simp only [Kind.coef, Biquad.allpass, alphaQ]
    rw [ec, es]; push_cast; field_simp; ring
  | notchQ q => exact nch q hk st
  | notchBw bw =>
    simp only [Kind.coef, alphaBw_eq] at st ⊢
    exact nch _ (hbw bw hk) st
  | peakingQ db q => exact pk db q hk st
  | peakingBw db bw =>
    simp only [Kind.coef, alphaBw_eq] at st ⊢
    exact pk db _ (hbw bw hk) st
  | lowshelf db q =>
    simp only [Kind.analog]
    rw [shelf db, ← mul_div_assoc, ← gainA]
    refine Coef.response_eq st θ hc T s _ _ _ hsT hm2 ?_ ?_ <;> simp only [Kind.coef, Biquad.lowshelf] <;>
      rw [ec, es] <;> push_cast <;> field_simp <;> ring
  | highshelf db q =>
    simp only [Kind.analog]
    rw [shelf db, ← mul_div_assoc, ← gainA]
    refine Coef.response_eq st θ hc T s _ _ _ hsT hm2 ?_ ?_ <;> simp only [Kind.coef, Biquad.highshelf] <;>
      rw [ec, es] <;> push_cast <;> field_simp <;> ring


namespace Biquad
theorem nsq (x y : ℝ) : ‖(x : ℂ) + Complex.I * y‖ = Real.sqrt (x ^ 2 + y ^ 2) := by
  rw [mul_comm, Complex.norm_add_mul_I]
end Biquad

set_option maxHeartbeats 1000000 in
/-- **C59.** Gains over the whole range of frequencies: the all-pass has gain 1 everywhere, the constant-peak band-pass
and the notch never amplify, the constant-skirt band-pass never amplifies by more than its quality factor, the low-pass and the
high-pass do not amplify when the quality factor is at most `1 / √2` (no resonance), and a boosting peaking filter
amplifies everything between not at all and by its gain. -/
theorem C59_gain (f sps θ q : ℝ) (hs : 0 < sps) (h0 : 0 < f) (h1 : f < sps / 2) (hθ0 : 0 ≤ θ) (hθ1 : θ < Real.pi)
    (hq : 0 < q) :
    let gain := fun k : Kind => ‖(k.filter f sps).response θ‖
    gain (.allpass q) = 1 ∧ gain (.bandpassCpgQ q) ≤ 1 ∧ gain (.notchQ q) ≤ 1 ∧ gain (.bandpassCsgQ q) ≤ q ∧
    (2 * q ^ 2 ≤ 1 → gain (.lowpass q) ≤ 1 ∧ gain (.highpass q) ≤ 1) ∧
    (∀ db, 0 ≤ db → 1 ≤ gain (.peakingQ db q) ∧ gain (.peakingQ db q) ≤ (10 : ℝ) ^ (db / 20)) := by
  intro gain
  have book : ∀ k : Kind, k.Valid → gain k = ‖k.analog (2 * Real.pi * f / sps)
      (Complex.I * Real.tan (θ / 2) / Real.tan (2 * Real.pi * f / sps / 2))‖ := fun k hk => by
    rw [← C59_cookbook k f sps θ hk hs h0 h1 hθ0 hθ1]
  set Ω := Real.tan (θ / 2) / Real.tan (2 * Real.pi * f / sps / 2) with hΩ
  have es : Complex.I * Real.tan (θ / 2) / Real.tan (2 * Real.pi * f / sps / 2) = Complex.I * (Ω : ℂ) := by
    rw [hΩ]; push_cast; ring
  rw [es] at book
  have sq : (Complex.I * (Ω : ℂ)) ^ 2 = ((-Ω ^ 2 : ℝ) : ℂ) := by rw [mul_pow, Complex.I_sq]; push_cast; ring
  set x := 1 - Ω ^ 2 with hx
  set y := Ω / q with hy
  have hΩy : Ω = q * y := by rw [hy]; field_simp
  have den : (Complex.I * (Ω : ℂ)) ^ 2 + Complex.I * (Ω : ℂ) / q + 1 = (x : ℂ) + Complex.I * (y : ℂ) := by
    rw [sq, hx, hy]; push_cast; ring
  have pos : 0 < x ^ 2 + y ^ 2 := by
    by_contra h
    have hx0 : x = 0 := by nlinarith [sq_nonneg x, sq_nonneg y]
    have hy0 : y = 0 := by nlinarith [sq_nonneg x, sq_nonneg y]
    rw [hy0, mul_zero] at hΩy
    rw [hx, hΩy] at hx0; norm_num at hx0
  have sp : 0 < Real.sqrt (x ^ 2 + y ^ 2) := Real.sqrt_pos.2 pos
  refine ⟨?_, ?_, ?_, ?_, ?_, ?_⟩
  · rw [book (.allpass q) hq]
    simp only [Kind.analog]
    have num : (Complex.I * (Ω : ℂ)) ^ 2 - Complex.I * (Ω : ℂ) / q + 1 = (x : ℂ) + Complex.I * ((-y : ℝ) : ℂ) := by
      rw [sq, hx, hy]; push_cast; ring
    rw [num, den, norm_div, nsq, nsq, neg_sq, div_self sp.ne']
  · rw [book (.bandpassCpgQ q) hq]
    simp only [Kind.analog]
    have num : Complex.I * (Ω : ℂ) / q = ((0 : ℝ) : ℂ) + Complex.I * (y : ℂ) := by rw [hy]; push_cast; ring
    rw [den, num, norm_div, nsq, nsq, div_le_one sp]
    exact Real.sqrt_le_sqrt (by nlinarith [sq_nonneg x])
  · rw [book (.notchQ q) hq]
    simp only [Kind.analog]
    have num : (Complex.I * (Ω : ℂ)) ^ 2 + 1 = (x : ℂ) + Complex.I * ((0 : ℝ) : ℂ) := by
      rw [sq, hx]; push_cast; ring
    rw [num, den, norm_div, nsq, nsq, div_le_one sp]
    exact Real.sqrt_le_sqrt (by nlinarith [sq_nonneg y])
  · rw [book (.bandpassCsgQ q) hq]
    simp only [Kind.analog]
    have num : Complex.I * (Ω : ℂ) = (q : ℂ) * (((0 : ℝ) : ℂ) + Complex.I * (y : ℂ)) := by
      rw [hΩy]; push_cast; ring
    rw [den, num, norm_div, norm_mul, nsq, nsq, Complex.norm_real, Real.norm_of_nonneg hq.le, div_le_iff₀ sp]
    exact mul_le_mul_of_nonneg_left (Real.sqrt_le_sqrt (by nlinarith [sq_nonneg x])) hq.le
  · intro h2
    have hy2 : 2 * Ω ^ 2 ≤ y ^ 2 := by
      rw [hΩy, mul_pow]; nlinarith [sq_nonneg y]
    have big : 1 + Ω ^ 4 ≤ x ^ 2 + y ^ 2 := by rw [hx]; nlinarith
    refine ⟨?_, ?_⟩
    · rw [book (.lowpass q) hq]
      simp only [Kind.analog]
      rw [den, norm_div, nsq, norm_one, div_le_one sp]
      apply Real.le_sqrt_of_sq_le
      nlinarith [sq_nonneg (Ω ^ 2)]
    · rw [book (.highpass q) hq]
      simp only [Kind.analog]
      rw [den, sq, norm_div, nsq, Complex.norm_real, Real.norm_eq_abs, abs_neg, abs_of_nonneg (sq_nonneg Ω), div_le_one sp]
      apply Real.le_sqrt_of_sq_le
      nlinarith
  · intro db hdb
    have hA1 : 1 ≤ (10 : ℝ) ^ (db / 40) := Real.one_le_rpow (by norm_num) (by positivity)
    have hg : (10 : ℝ) ^ (db / 20) = (10 : ℝ) ^ (db / 40) * (10 : ℝ) ^ (db / 40) := by
      rw [← Real.rpow_add (by norm_num)]; congr 1; ring
    rw [book (.peakingQ db q) hq, hg]
    simp only [Kind.analog]
    generalize (10 : ℝ) ^ (db / 40) = A at *
    have hA0 : A ≠ 0 := by positivity
    have hA0' : (A : ℂ) ≠ 0 := by exact_mod_cast hA0
    have hq' : (q : ℂ) ≠ 0 := by exact_mod_cast hq.ne'
    have num : (Complex.I * (Ω : ℂ)) ^ 2 + Complex.I * (Ω : ℂ) * ((A : ℂ) / q) + 1
        = (x : ℂ) + Complex.I * ((A * y : ℝ) : ℂ) := by
      rw [sq, hx, hy]; push_cast; ring
    have dn : (Complex.I * (Ω : ℂ)) ^ 2 + Complex.I * (Ω : ℂ) / ((A : ℂ) * q) + 1
        = (x : ℂ) + Complex.I * ((y / A : ℝ) : ℂ) := by
      rw [sq, hx, hy]; push_cast; field_simp; ring
    have pos' : 0 < x ^ 2 + (y / A) ^ 2 := by
      by_contra h
      have hx0 : x ^ 2 = 0 := by nlinarith [sq_nonneg x, sq_nonneg (y / A)]
      have hy0 : (y / A) ^ 2 = 0 := by nlinarith [sq_nonneg x, sq_nonneg (y / A)]
      have : y = 0 := by simpa [hA0] using hy0
      rw [hx0, this] at pos; norm_num at pos
    have sp' := Real.sqrt_pos.2 pos'
    have hz : y = A * (y / A) := by field_simp
    rw [num, dn, norm_div, nsq, nsq, le_div_iff₀ sp', div_le_iff₀ sp', one_mul]
    refine ⟨Real.sqrt_le_sqrt ?_, ?_⟩
    · rw [hz]
      have e : A * (y / A) / A = y / A := by field_simp
      rw [e]
      generalize y / A = v
      nlinarith [sq_nonneg v, sq_nonneg (A * v), mul_nonneg (sq_nonneg v) (by nlinarith : 0 ≤ (A * A - 1)),
        mul_nonneg (sq_nonneg v) (mul_nonneg (by nlinarith : 0 ≤ (A * A - 1)) (by nlinarith : 0 ≤ A * A))]
    · have e2 : A * A * Real.sqrt (x ^ 2 + (y / A) ^ 2) = Real.sqrt ((A * A) ^ 2 * (x ^ 2 + (y / A) ^ 2)) := by
        rw [Real.sqrt_mul (by positivity), Real.sqrt_sq (by positivity)]
      rw [e2]
      apply Real.sqrt_le_sqrt
      have e3 : (A * A) ^ 2 * (x ^ 2 + (y / A) ^ 2) = (A * A) ^ 2 * x ^ 2 + (A * y) ^ 2 := by field_simp
      rw [e3]
      have : 1 ≤ (A * A) ^ 2 := by nlinarith [mul_le_mul hA1 hA1 (by norm_num) (by linarith)]
      nlinarith [mul_nonneg (sq_nonneg x) (by linarith : 0 ≤ (A * A) ^ 2 - 1)]

end Verif
