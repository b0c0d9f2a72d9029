import Verif.Model.Fx
import Verif.Props.Follower
/-!
# C55, C56 (fixed point), C68, C73: DC blocker, leaky integrator, dynamic smoother, down-sampler
-/
namespace Verif
open Fx

section dc
variable {K : Type} [Field K] [LinearOrder K] [IsStrictOrderedRing K]

/-- **C55** (exact arithmetic) For every pole in [0, 1] and every signal within `[lo, hi]` (with `lo ≤ 0 ≤ hi`, the filter
starting from rest) every output is within `±(hi - lo)`; more precisely it is the sample minus a value within
`[lo, hi]`. -/
theorem C55_bounded (p lo hi : K) (h0 : 0 ≤ p) (h1 : p ≤ 1) (hlo : lo ≤ 0) (hhi : 0 ≤ hi) (xs : List K)
    (hx : ∀ x ∈ xs, lo ≤ x ∧ x ≤ hi) (s : K) :
    let y := ((final (DcBlock.feed p) ⟨0, 0⟩ xs).feed p s).2
    (lo ≤ s - y ∧ s - y ≤ hi) ∧ (lo ≤ s → s ≤ hi → |y| ≤ hi - lo) := by
  have key : ∀ (xs : List K) (d : DcBlock K), (∀ x ∈ xs, lo ≤ x ∧ x ≤ hi) → lo ≤ d.x - d.y → d.x - d.y ≤ hi →
      lo ≤ d.x → d.x ≤ hi → let d' := final (DcBlock.feed p) d xs
      (lo ≤ d'.x - d'.y ∧ d'.x - d'.y ≤ hi) ∧ lo ≤ d'.x ∧ d'.x ≤ hi := by
    intro xs
    induction xs with
    | nil => intro d _ a b c e; exact ⟨⟨a, b⟩, c, e⟩
    | cons x xs ih =>
      intro d hx a b c e
      have hx0 := hx x (by simp)
      refine ih (d.feed p x).1 (fun z hz => hx z (by simp [hz])) ?_ ?_ hx0.1 hx0.2
      · simp only [DcBlock.feed]; nlinarith
      · simp only [DcBlock.feed]; nlinarith
  have hk := key xs ⟨0, 0⟩ hx (by simpa using hlo) (by simpa using hhi) hlo hhi
  intro y
  have hw : lo ≤ s - y ∧ s - y ≤ hi := by
    obtain ⟨⟨a, b⟩, c, e⟩ := hk
    simp only [y, DcBlock.feed]
    constructor <;> nlinarith
  refine ⟨hw, fun hs1 hs2 => ?_⟩
  rw [abs_le]
  constructor <;> linarith

omit [LinearOrder K] [IsStrictOrderedRing K] in
/-- **C55** (exact arithmetic) For every pole and every signal, `(1 - p)` times the sum of all outputs is the last sample
minus `p` times the last output.  So (with `C55_bounded`) for a bounded signal the running sum of the outputs is bounded
for every `p` in [0, 1): the output of *every* bounded signal has mean zero in the long run. -/
theorem C55_sum (p : K) (xs : List K) (s : K) :
    let outs := outputs (DcBlock.feed p) ⟨0, 0⟩ (xs ++ [s])
    let y := ((final (DcBlock.feed p) ⟨0, 0⟩ xs).feed p s).2
    (1 - p) * outs.sum = s - p * y := by
  have key : ∀ (xs : List K) (d : DcBlock K), (1 - p) * (outputs (DcBlock.feed p) d xs).sum =
      (final (DcBlock.feed p) d xs).x - p * (final (DcBlock.feed p) d xs).y - (d.x - p * d.y) := by
    intro xs
    induction xs with
    | nil => intro d; simp [outputs, final]
    | cons x xs ih =>
      intro d
      simp only [outputs, final, List.sum_cons, mul_add]
      rw [ih]
      simp only [DcBlock.feed]
      ring
  intro outs y
  have := key (xs ++ [s]) ⟨0, 0⟩
  simp only [final_append, final, mul_zero, sub_zero] at this
  rw [this]
  rfl

/-- **C55** (exact arithmetic) The mean of the outputs of a signal within `±B` tends to zero: the sum of any number of
outputs is within `B (1 + 2 p) / (1 - p)`. -/
theorem C55_mean_zero (p B : K) (h0 : 0 ≤ p) (h1 : p < 1) (hB : 0 ≤ B) (xs : List K) (hx : ∀ x ∈ xs, |x| ≤ B) :
    |(outputs (DcBlock.feed p) ⟨0, 0⟩ xs).sum| ≤ B * (1 + 2 * p) / (1 - p) := by
  have hp : 0 < 1 - p := by linarith
  rcases List.eq_nil_or_concat xs with rfl | ⟨ys, s, rfl⟩
  · simp only [outputs, List.sum_nil, abs_zero]
    exact div_nonneg (mul_nonneg hB (by linarith)) hp.le
  · rw [List.concat_eq_append] at *
    have hs := abs_le.1 (hx s (by simp))
    have hb := C55_bounded p (-B) B h0 h1.le (by linarith) hB ys
      (fun x hxy => abs_le.1 (hx x (by simp [hxy]))) s
    have hy := abs_le.1 (hb.2 hs.1 hs.2)
    have e := C55_sum p ys s
    simp only at e hy
    generalize (outputs (DcBlock.feed p) ⟨0, 0⟩ (ys ++ [s])).sum = S at *
    generalize ((final (DcBlock.feed p) ⟨0, 0⟩ ys).feed p s).2 = y at *
    have hS : |S| * (1 - p) = |s - p * y| := by rw [← e, abs_mul, abs_of_pos hp]; ring
    rw [le_div_iff₀ hp, hS, abs_le]
    constructor <;> nlinarith

omit [LinearOrder K] [IsStrictOrderedRing K] in
/-- **C55** (exact arithmetic) A constant input `c` decays geometrically: the n-th output is `p^n c`. -/
theorem C55_constant_input (p c : K) (n : Nat) :
    (outputs (DcBlock.feed p) ⟨0, 0⟩ (List.replicate (n + 1) c))[n]? = some (p ^ n * c) := by
  have key : ∀ (n : Nat) (d : DcBlock K), d.x = c →
      (outputs (DcBlock.feed p) d (List.replicate (n + 1) c))[n]? = some (p ^ (n + 1) * d.y) := by
    intro n
    induction n with
    | zero => intro d hd; simp [outputs, DcBlock.feed, hd]
    | succ n ih =>
      intro d hd
      rw [List.replicate_succ]
      simp only [outputs, List.getElem?_cons_succ]
      rw [ih _ rfl]
      simp only [DcBlock.feed, hd, sub_self, zero_add]
      congr 1; ring
  cases n with
  | zero => simp [outputs, DcBlock.feed]
  | succ n =>
    rw [List.replicate_succ]
    simp only [outputs, List.getElem?_cons_succ]
    rw [key n _ rfl]
    simp [DcBlock.feed]
end dc

/-- **C55** The pole is in [0, 1), as the theorems above require, for every cut-off up to `sps / (2 pi)`. -/
theorem C55_pole_range (f sps : ℝ) (hf : 0 < f) (hs : 0 < sps) (h : 2 * Real.pi * f ≤ sps) :
    0 ≤ pole f sps ∧ pole f sps < 1 := by
  unfold pole
  have h1 : 2 * Real.pi * f / sps ≤ 1 := by rw [div_le_one hs]; exact h
  have h2 : 0 < 2 * Real.pi * f / sps := by positivity
  constructor <;> linarith

/-- **C55** (exact arithmetic) For every pole of modulus below 1, negative ones included: for a signal within [-B, B] the
outputs are at most `2B / (1 - |p|)`, and so is, up to a constant, their running sum: the output has mean zero in the long
run. -/
theorem C55_stable {K : Type} [Field K] [LinearOrder K] [IsStrictOrderedRing K] (p B : K) (hp : |p| < 1) (hB : 0 ≤ B) (xs : List K) (hx : ∀ x ∈ xs, |x| ≤ B) :
    (∀ y ∈ outputs (DcBlock.feed p) ⟨0, 0⟩ xs, |y| ≤ 2 * B / (1 - |p|)) ∧
    |(outputs (DcBlock.feed p) ⟨0, 0⟩ xs).sum| ≤ (B + |p| * (2 * B / (1 - |p|))) / (1 - p) := by
  have hq : 0 < 1 - |p| := by linarith
  have hp1 : 0 < 1 - p := by linarith [le_abs_self p]
  have hM : 2 * B / (1 - |p|) * (1 - |p|) = 2 * B := div_mul_cancel₀ _ hq.ne'
  have hM0 : 0 ≤ 2 * B / (1 - |p|) := div_nonneg (by linarith) hq.le
  generalize 2 * B / (1 - |p|) = M at *
  have key : ∀ (xs : List K) (d : DcBlock K), (∀ x ∈ xs, |x| ≤ B) → |d.x| ≤ B → |d.y| ≤ M →
      (∀ y ∈ outputs (DcBlock.feed p) d xs, |y| ≤ M) ∧ |(final (DcBlock.feed p) d xs).y| ≤ M := by
    intro xs
    induction xs with
    | nil => intro d _ _ h; exact ⟨fun y hy => by simp [outputs] at hy, h⟩
    | cons x xs ih =>
      intro d hx hdx hdy
      have h1 : |x - d.x + p * d.y| ≤ M := by
        have a1 := abs_add_le (x - d.x) (p * d.y)
        have a2 := abs_sub x d.x
        rw [abs_mul] at a1
        have a3 : |p| * |d.y| ≤ |p| * M := mul_le_mul_of_nonneg_left hdy (abs_nonneg p)
        have a4 := hx x (by simp)
        linarith
      have e : (DcBlock.feed p d x).2 = x - d.x + p * d.y := rfl
      have := ih (DcBlock.feed p d x).1 (fun z hz => hx z (by simp [hz])) (hx x (by simp)) (by
        show |x - d.x + p * d.y| ≤ M; exact h1)
      refine ⟨?_, this.2⟩
      intro y hy
      simp only [outputs, List.mem_cons] at hy
      rcases hy with rfl | hy
      · rw [e]; exact h1
      · exact this.1 y hy
  refine ⟨(key xs ⟨0, 0⟩ hx (by simpa using hB) (by simpa using hM0)).1, ?_⟩
  rcases List.eq_nil_or_concat xs with rfl | ⟨ys, s, rfl⟩
  · simp only [outputs, List.sum_nil, abs_zero]
    exact div_nonneg (add_nonneg hB (mul_nonneg (abs_nonneg p) hM0)) hp1.le
  · rw [List.concat_eq_append] at *
    have hs := hx s (by simp)
    have e := C55_sum p ys s
    have hy : |((final (DcBlock.feed p) ⟨0, 0⟩ ys).feed p s).2| ≤ M := by
      have h := (key (ys ++ [s]) ⟨0, 0⟩ hx (by simpa using hB) (by simpa using hM0)).2
      rw [final_append] at h
      exact h
    simp only at e
    generalize (outputs (DcBlock.feed p) ⟨0, 0⟩ (ys ++ [s])).sum = S at *
    generalize ((final (DcBlock.feed p) ⟨0, 0⟩ ys).feed p s).2 = y at *
    have hS : |S| * (1 - p) = |s - p * y| := by rw [← e, abs_mul, abs_of_pos hp1]; ring
    rw [le_div_iff₀ hp1, hS]
    have a1 := abs_sub s (p * y)
    rw [abs_mul] at a1
    have : |p| * |y| ≤ |p| * M := mul_le_mul_of_nonneg_left hy (abs_nonneg p)
    linarith

/-- **C55** The pole has modulus below 1, so that `C55_stable` applies, exactly for the cut-offs below `sps / pi`. -/
theorem C55_pole_stable (f sps : ℝ) (hf : 0 < f) (hs : 0 < sps) :
    |pole f sps| < 1 ↔ Real.pi * f < sps := by
  unfold pole
  have h2 : 0 < 2 * Real.pi * f / sps := by positivity
  rw [abs_lt]
  constructor
  · rintro ⟨h, -⟩
    have : 2 * Real.pi * f / sps < 2 := by linarith
    rw [div_lt_iff₀ hs] at this
    linarith
  · intro h
    have : 2 * Real.pi * f / sps < 2 := by rw [div_lt_iff₀ hs]; linarith
    constructor <;> linarith

/-- **C55 fails** for every cut-off above `sps / (2 pi)`: the component removed from the signal 1, 0 leaves the range of the
signal. -/
theorem C55_hull_violation (f sps : ℝ) (hs : 0 < sps) (h : sps < 2 * Real.pi * f) :
    1 < 0 - ((final (DcBlock.feed (pole f sps)) ⟨0, 0⟩ [1]).feed (pole f sps) 0).2 := by
  have hp : pole f sps < 0 := by
    unfold pole
    have : 1 < 2 * Real.pi * f / sps := by rw [lt_div_iff₀ hs]; linarith
    linarith
  simp only [final, DcBlock.feed]
  linarith

/-- **C55 fails** for cut-offs above `sps / pi` (the Nyquist frequency is `sps / 2`): the filter (exact arithmetic) is
unstable, its response to a unit step is unbounded. -/
theorem C55_unstable_violation (f sps B : ℝ) (hs : 0 < sps) (hf : sps < Real.pi * f) :
    ∃ n y, (outputs (DcBlock.feed (pole f sps)) ⟨0, 0⟩ (List.replicate (n + 1) 1))[n]? = some y ∧ B < |y| := by
  have hp : pole f sps < -1 := by
    unfold pole
    have : 2 < 2 * Real.pi * f / sps := by
      rw [lt_div_iff₀ hs]
      linarith
    linarith
  have ha : 1 < |pole f sps| := by rw [abs_of_neg (by linarith)]; linarith
  obtain ⟨n, hn⟩ := pow_unbounded_of_one_lt B ha
  refine ⟨n, _, C55_constant_input _ 1 n, ?_⟩
  rwa [mul_one, abs_pow]

/-- Such cut-offs below the Nyquist frequency exist: `0.32 sps`. -/
example : (44100 : ℝ) < Real.pi * (0.32 * 44100) ∧ (0.32 * 44100 : ℝ) < 44100 / 2 := by
  constructor
  · linarith [Real.pi_gt_d2]
  · norm_num

/-- **C55 fails** for assigning the current value: `operator=` takes a `bool`, so assigning 0.5 sets the value to 1. -/
theorem C55_assign_violation : (DcBlock.assign ⟨0, 0⟩ (1 / 2)).y = 1 := by
  norm_num [DcBlock.assign]

example : outputs (DcBlock.feed (1 / 2 : ℚ)) ⟨0, 0⟩ [1, 1, 1, 0] = [1, 1 / 2, 1 / 4, -7 / 8] := by
  norm_num [outputs, DcBlock.feed]

/-! ## Fixed-point leaky integrator -/
namespace Fx
theorem fixedLeaky_ok {k y s lo hi : Int} (hk : 1 ≤ k) (_hlo : lo ≤ 0) (hhi : 0 ≤ hi) (hB : k * hi < 2 ^ 31)
    (hA : -2 ^ 31 ≤ k * lo) (hs : lo ≤ s) (hs' : s ≤ hi) (hsz : hi - lo < 2 ^ 31) (hy : k * lo ≤ y) (hy' : y ≤ k * hi) :
    ∃ y', fixedLeaky k y s = .ok (y', y') ∧ k * lo ≤ y' ∧ y' ≤ k * hi ∧ y' = y + (s - y.tdiv k) ∧
      (0 ≤ y → y < k * s → y < y' ∧ y' ≤ k * s) ∧ (y ≤ 0 → k * s < y → y' < y ∧ k * s ≤ y') ∧ (y = k * s → y' = y) := by
  -- bounds on the truncated quotient
  have q : (0 ≤ y → k * y.tdiv k ≤ y ∧ y < k * (y.tdiv k + 1)) ∧ (y ≤ 0 → y ≤ k * y.tdiv k ∧ k * (y.tdiv k - 1) < y) := by
    constructor
    · intro h
      rw [Int.tdiv_eq_ediv_of_nonneg h]
      have := Int.mul_ediv_add_emod y k
      have m1 := Int.emod_nonneg y (show k ≠ 0 by omega)
      have m2 := Int.emod_lt_of_pos y (show 0 < k by omega)
      constructor <;> nlinarith
    · intro h
      have h' : 0 ≤ -y := by omega
      have e : y.tdiv k = -((-y) / k) := by
        rw [← Int.tdiv_eq_ediv_of_nonneg h', Int.neg_tdiv, neg_neg]
      rw [e]
      have := Int.mul_ediv_add_emod (-y) k
      have m1 := Int.emod_nonneg (-y) (show k ≠ 0 by omega)
      have m2 := Int.emod_lt_of_pos (-y) (show 0 < k by omega)
      constructor <;> nlinarith
  have ql : lo ≤ y.tdiv k ∧ y.tdiv k ≤ hi := by
    rcases le_total 0 y with h | h
    · have := q.1 h
      constructor <;> nlinarith
    · have := q.2 h
      constructor <;> nlinarith
  have hb : k * lo ≤ y + (s - y.tdiv k) ∧ y + (s - y.tdiv k) ≤ k * hi := by
    generalize y.tdiv k = t at *
    rcases le_total 0 y with h | h
    · have h1 := q.1 h
      have ht : 0 ≤ t := by nlinarith
      constructor
      · nlinarith
      · rcases eq_or_lt_of_le ql.2 with e | e
        · subst e; nlinarith
        · nlinarith
    · have h1 := q.2 h
      have ht : t ≤ 0 := by nlinarith
      constructor
      · rcases eq_or_lt_of_le ql.1 with e | e
        · subst e; nlinarith
        · nlinarith
      · nlinarith
  refine ⟨y + (s - y.tdiv k), ?_, hb.1, hb.2, rfl, ?_, ?_, ?_⟩
  · unfold fixedLeaky
    rw [subInt_ok (by omega) (by omega)]
    simp only [bind, Except.bind]
    rw [if_pos ⟨by omega, by omega⟩]
    rfl
  · intro h h2
    have h1 := q.1 h
    generalize y.tdiv k = t at *
    have : t < s := by nlinarith
    constructor
    · omega
    · nlinarith
  · intro h h2
    have h1 := q.2 h
    generalize y.tdiv k = t at *
    have : s < t := by nlinarith
    constructor
    · omega
    · nlinarith
  · intro h
    rw [h, Int.mul_tdiv_cancel_left _ (show k ≠ 0 by omega)]
    omega
end Fx

/-- **C56** (32-bit `int`s, truncating division) Fixed-point leaky integrator, `k ≥ 1`, from 0: for every sequence of
samples within `[lo, hi]` (`lo ≤ 0 ≤ hi`), if `k lo` and `k hi` fit in an `int`, no operation overflows, and every output
divided by the gain `k` is within `[lo, hi]`. -/
theorem C56_fixed_point (k lo hi : Int) (hk : 1 ≤ k) (hlo : lo ≤ 0) (hhi : 0 ≤ hi) (hB : k * hi < 2 ^ 31)
    (hA : -2 ^ 31 ≤ k * lo) (hsz : hi - lo < 2 ^ 31) (xs : List Int) (hx : ∀ x ∈ xs, lo ≤ x ∧ x ≤ hi) :
    ∃ y outs, runC (fixedLeaky k) 0 xs = .ok (y, outs) ∧ outs.length = xs.length ∧ ∀ o ∈ outs, k * lo ≤ o ∧ o ≤ k * hi := by
  have key : ∀ (xs : List Int) (y : Int), k * lo ≤ y → y ≤ k * hi → (∀ x ∈ xs, lo ≤ x ∧ x ≤ hi) →
      ∃ y' outs, runC (fixedLeaky k) y xs = .ok (y', outs) ∧ outs.length = xs.length ∧
        ∀ o ∈ outs, k * lo ≤ o ∧ o ≤ k * hi := by
    intro xs
    induction xs with
    | nil => intro y _ _ _; exact ⟨y, [], rfl, rfl, by simp⟩
    | cons x xs ih =>
      intro y h1 h2 hx
      have hx0 := hx x (by simp)
      obtain ⟨y1, e1, b1, b2, -⟩ := fixedLeaky_ok hk hlo hhi hB hA hx0.1 hx0.2 hsz h1 h2
      obtain ⟨y2, outs, e2, hl, ho⟩ := ih y1 b1 b2 (fun z hz => hx z (by simp [hz]))
      refine ⟨y2, y1 :: outs, ?_, by simp [hl], ?_⟩
      · simp only [runC, e1, bind, Except.bind, e2]; rfl
      · intro o hm
        rcases List.mem_cons.1 hm with rfl | hm
        · exact ⟨b1, b2⟩
        · exact ho o hm
  exact key xs 0 (by nlinarith) (by nlinarith) hx

/-- **C56** (32-bit `int`s) Under a constant input `c`, the fixed-point integrator reaches exactly `k c` after at most
`|k c|` samples, and stays there for ever. -/
theorem C56_fixed_point_converges (k c : Int) (hk : 1 ≤ k) (hB : k * c < 2 ^ 31) (hA : -2 ^ 31 < k * c)
    (n : Nat) (hn : (k * c).natAbs ≤ n) :
    ∃ outs, runC (fixedLeaky k) 0 (List.replicate n c) = .ok (k * c, outs) := by
  have key : ∀ (n : Nat) (y : Int), (0 ≤ y ∧ y ≤ k * c) ∨ (y ≤ 0 ∧ k * c ≤ y) → (k * c - y).natAbs ≤ n →
      ∃ outs, runC (fixedLeaky k) y (List.replicate n c) = .ok (k * c, outs) := by
    intro n
    induction n with
    | zero =>
      intro y _ h
      have : y = k * c := by omega
      exact ⟨[], by rw [this]; rfl⟩
    | succ n ih =>
      intro y hy h
      have hcs : (0 ≤ y ∧ y ≤ k * c → 0 ≤ c) ∧ (y ≤ 0 ∧ k * c ≤ y → c ≤ 0) := by
        constructor
        · intro h; by_contra hc; push Not at hc; nlinarith
        · intro h; by_contra hc; push Not at hc; nlinarith
      have hkc : (0 ≤ c → c ≤ k * c) ∧ (c ≤ 0 → k * c ≤ c) := by
        constructor <;> intro h <;> nlinarith
      obtain ⟨y', e, -, -, -, up, dn, eq⟩ := fixedLeaky_ok (k := k) (y := y) (s := c) (lo := min c 0) (hi := max c 0)
        hk (by omega) (by omega)
        (by rcases le_total c 0 with h | h
            · rw [max_eq_right h]; omega
            · rw [max_eq_left h]; omega)
        (by rcases le_total c 0 with h | h
            · rw [min_eq_left h]; omega
            · rw [min_eq_right h]; omega)
        (by omega) (by omega) (by omega)
        (by rcases le_total c 0 with h | h
            · rw [min_eq_left h]; rcases hy with hy | hy
              · have := hcs.1 hy; have : c = 0 := by omega
                subst this; omega
              · exact hy.2
            · rw [min_eq_right h]; rcases hy with hy | hy
              · omega
              · have := hcs.2 hy; have : c = 0 := by omega
                subst this; omega)
        (by rcases le_total c 0 with h | h
            · rw [max_eq_right h]; rcases hy with hy | hy
              · have := hcs.1 hy; have : c = 0 := by omega
                subst this; omega
              · omega
            · rw [max_eq_left h]; rcases hy with hy | hy
              · exact hy.2
              · have := hcs.2 hy; have : c = 0 := by omega
                subst this; omega)
      have hcase : ((0 ≤ y' ∧ y' ≤ k * c) ∨ (y' ≤ 0 ∧ k * c ≤ y')) ∧ (k * c - y').natAbs ≤ n := by
        rcases eq_or_ne y (k * c) with h1 | h1
        · have := eq h1; rw [this]; exact ⟨hy, by omega⟩
        · rcases hy with hy | hy
          · have := up hy.1 (by omega)
            exact ⟨.inl ⟨by omega, this.2⟩, by omega⟩
          · have := dn hy.1 (by omega)
            exact ⟨.inr ⟨by omega, this.2⟩, by omega⟩
      obtain ⟨outs, e2⟩ := ih y' hcase.1 hcase.2
      refine ⟨y' :: outs, ?_⟩
      rw [List.replicate_succ]
      simp only [runC, e, bind, Except.bind, e2]; rfl
  refine key n 0 ?_ (by omega)
  rcases le_total 0 (k * c) with h | h
  · exact .inl ⟨le_rfl, h⟩
  · exact .inr ⟨le_rfl, h⟩

example : (runC (fixedLeaky 4) 0 [5, 5, 5, -5]).map (·.2) = .ok [5, 9, 12, 4] := by decide +kernel

/-! ## Dynamic smoother -/
section smoother
variable {K : Type} [Field K] [LinearOrder K] [IsStrictOrderedRing K]

/-- **C68** (exact arithmetic) Dynamic smoother with any base coefficient `g0 ≥ 0` and any sensitivity `≥ 0`: for every
signal within `[lo, hi]` (which also contains the initial state) every output is within `[lo, hi]`. -/
theorem C68_hull (d : Smoother K) (hg : 0 ≤ d.g0) (hs : 0 ≤ d.sense) (lo hi : K) (h1 : lo ≤ d.low1 ∧ d.low1 ≤ hi)
    (h2 : lo ≤ d.low2 ∧ d.low2 ≤ hi) (xs : List K) (hx : ∀ x ∈ xs, lo ≤ x ∧ x ≤ hi) :
    ∀ y ∈ outputs Smoother.feed d xs, lo ≤ y ∧ y ≤ hi := by
  induction xs generalizing d with
  | nil => simp [outputs]
  | cons x xs ih =>
    have hx0 := hx x (by simp)
    have hG : 0 ≤ min (d.g0 + d.sense * |d.low1 - d.low2|) 1 :=
      le_min (add_nonneg hg (mul_nonneg hs (abs_nonneg _))) zero_le_one
    have hG1 : min (d.g0 + d.sense * |d.low1 - d.low2|) 1 ≤ 1 := min_le_right _ _
    intro y hy
    simp only [outputs, List.mem_cons] at hy
    rcases hy with rfl | hy
    · exact h2
    · refine ih (d.feed x).1 hg hs ?_ ?_ (fun z hz => hx z (by simp [hz])) y hy
      · simp only [Smoother.feed]
        generalize min (d.g0 + d.sense * |d.low1 - d.low2|) 1 = g at *
        constructor <;> nlinarith
      · simp only [Smoother.feed]
        generalize min (d.g0 + d.sense * |d.low1 - d.low2|) 1 = g at *
        have a1 : lo ≤ d.low1 + g * (x - d.low1) := by nlinarith
        have a2 : d.low1 + g * (x - d.low1) ≤ hi := by nlinarith
        generalize d.low1 + g * (x - d.low1) = l at *
        constructor <;> nlinarith

/-- **C68** (exact arithmetic) Under a constant input `c` the smoother converges to it: with `r = 1 - min g0 1`, after `n`
samples the two stages are within `r^n |low1 - c|` and `r^n (|low2 - c| + n |low1 - c|)` of `c`. -/
theorem C68_converges (d : Smoother K) (hg : 0 ≤ d.g0) (hs : 0 ≤ d.sense) (c : K) (n : Nat) :
    let r := 1 - min d.g0 1
    let e := final Smoother.feed d (List.replicate n c)
    |e.low1 - c| ≤ r ^ n * |d.low1 - c| ∧ |e.low2 - c| ≤ r ^ n * (|d.low2 - c| + n * |d.low1 - c|) := by
  have key : ∀ n : Nat, let e := final Smoother.feed d (List.replicate n c)
      e.g0 = d.g0 ∧ e.sense = d.sense ∧ |e.low1 - c| ≤ (1 - min d.g0 1) ^ n * |d.low1 - c| ∧
      |e.low2 - c| ≤ (1 - min d.g0 1) ^ n * (|d.low2 - c| + n * |d.low1 - c|) := by
    intro n
    induction n with
    | zero => simp [final]
    | succ n ih =>
      rw [List.replicate_succ', final_append]
      simp only at ih ⊢
      generalize final Smoother.feed d (List.replicate n c) = e at *
      obtain ⟨e0, es, b1, b2⟩ := ih
      refine ⟨e0, es, ?_, ?_⟩
      · have hG : 0 ≤ e.sense * |e.low1 - e.low2| := mul_nonneg (es ▸ hs) (abs_nonneg _)
        have g1 : min d.g0 1 ≤ min (e.g0 + e.sense * |e.low1 - e.low2|) 1 := min_le_min_right _ (by rw [e0]; linarith)
        have g2 : min (e.g0 + e.sense * |e.low1 - e.low2|) 1 ≤ 1 := min_le_right _ _
        simp only [final, Smoother.feed]
        generalize min (e.g0 + e.sense * |e.low1 - e.low2|) 1 = g at *
        rw [show e.low1 + g * (c - e.low1) - c = (1 - g) * (e.low1 - c) by ring, abs_mul, abs_of_nonneg (by linarith),
          pow_succ']
        have p1 : 0 ≤ |e.low1 - c| := abs_nonneg _
        calc (1 - g) * |e.low1 - c| ≤ (1 - min d.g0 1) * |e.low1 - c| := by nlinarith
          _ ≤ (1 - min d.g0 1) * ((1 - min d.g0 1) ^ n * |d.low1 - c|) :=
              mul_le_mul_of_nonneg_left b1 (by linarith)
          _ = _ := by ring
      · have hG : 0 ≤ e.sense * |e.low1 - e.low2| := mul_nonneg (es ▸ hs) (abs_nonneg _)
        have g1 : min d.g0 1 ≤ min (e.g0 + e.sense * |e.low1 - e.low2|) 1 := min_le_min_right _ (by rw [e0]; linarith)
        have g2 : min (e.g0 + e.sense * |e.low1 - e.low2|) 1 ≤ 1 := min_le_right _ _
        have g0 : 0 ≤ min d.g0 1 := le_min hg zero_le_one
        simp only [final, Smoother.feed]
        generalize min (e.g0 + e.sense * |e.low1 - e.low2|) 1 = g at *
        have l1 : |e.low1 + g * (c - e.low1) - c| ≤ (1 - min d.g0 1) ^ (n + 1) * |d.low1 - c| := by
          rw [show e.low1 + g * (c - e.low1) - c = (1 - g) * (e.low1 - c) by ring, abs_mul,
            abs_of_nonneg (by linarith), pow_succ']
          have p1 : 0 ≤ |e.low1 - c| := abs_nonneg _
          calc (1 - g) * |e.low1 - c| ≤ (1 - min d.g0 1) * |e.low1 - c| := by nlinarith
            _ ≤ (1 - min d.g0 1) * ((1 - min d.g0 1) ^ n * |d.low1 - c|) :=
                mul_le_mul_of_nonneg_left b1 (by linarith)
            _ = _ := by ring
        generalize e.low1 + g * (c - e.low1) = l at *
        have p2 : 0 ≤ |e.low2 - c| := abs_nonneg _
        have p3 : 0 ≤ |l - c| := abs_nonneg _
        calc |e.low2 + g * (l - e.low2) - c| = |(1 - g) * (e.low2 - c) + g * (l - c)| := by congr 1; ring
          _ ≤ |(1 - g) * (e.low2 - c)| + |g * (l - c)| := abs_add_le _ _
          _ = (1 - g) * |e.low2 - c| + g * |l - c| := by
              rw [abs_mul, abs_mul, abs_of_nonneg (by linarith : 0 ≤ 1 - g), abs_of_nonneg (by linarith : 0 ≤ g)]
          _ ≤ (1 - min d.g0 1) * |e.low2 - c| + |l - c| := by nlinarith
          _ ≤ (1 - min d.g0 1) * ((1 - min d.g0 1) ^ n * (|d.low2 - c| + n * |d.low1 - c|)) +
              (1 - min d.g0 1) ^ (n + 1) * |d.low1 - c| :=
              add_le_add (mul_le_mul_of_nonneg_left b2 (by linarith)) l1
          _ = _ := by push_cast; ring
  exact ⟨(key n).2.2.1, (key n).2.2.2⟩

example : outputs Smoother.feed (⟨2, 1 / 2, 0, 0⟩ : Smoother ℚ) [1, 1] = [0, 1 / 4] := by
  norm_num [outputs, Smoother.feed]
end smoother

/-! ## Down-sampler, range mapping -/

/-- **C73** (exact arithmetic) Fed with a signal in consecutive pairs, the k-th output of `fast_downsample` is the signal
filtered with the kernel (1/4, 1/2, 1/4) centred on sample `2k` (samples before the first being 0), for every signal. -/
theorem C73_downsample {K : Type} [Field K] (pairs : List (K × K)) (k : Nat) (hk : k < pairs.length) :
    let x := sig (pairs.flatMap fun p => [p.1, p.2])
    (outputs downsample 0 pairs)[k]? = some (x (2 * k - 1) / 4 + x (2 * k) / 2 + x (2 * k + 1) / 4) := by
  have hget : ∀ (ps : List (K × K)) (j : Nat), (ps.flatMap fun p => [p.1, p.2])[2 * j]? = ps[j]?.map (·.1) ∧
      (ps.flatMap fun p => [p.1, p.2])[2 * j + 1]? = ps[j]?.map (·.2) := by
    intro ps
    induction ps with
    | nil => intro j; simp
    | cons p ps ih =>
      intro j
      cases j with
      | zero => simp
      | succ j =>
        have := ih j
        simp only [List.flatMap_cons, List.cons_append, List.nil_append]
        rw [show 2 * (j + 1) = 2 * j + 1 + 1 by ring]
        simpa using this
  have hst : ∀ n, n ≤ pairs.length → final downsample 0 (pairs.take n) =
      sig (pairs.flatMap fun p => [p.1, p.2]) (2 * n - 1) / 4 := by
    intro n hn
    cases n with
    | zero => simp [final, sig]
    | succ n =>
      rw [final_take_succ downsample 0 pairs n hn]
      have h := (hget pairs n).2
      rw [List.getElem?_eq_getElem hn] at h
      have hs : sig (pairs.flatMap fun p => [p.1, p.2]) (2 * ((n + 1 : Nat) : Int) - 1) = pairs[n].2 := by
        unfold sig
        rw [if_pos (by push_cast; omega), show (2 * ((n + 1 : Nat) : Int) - 1).toNat = 2 * n + 1 by omega, h]
        rfl
      rw [hs]; rfl
  intro x
  rw [outputs_getElem? downsample 0 pairs k hk, hst k (by omega)]
  have h1 := (hget pairs k).1
  have h2 := (hget pairs k).2
  rw [List.getElem?_eq_getElem hk] at h1 h2
  have e1 : x (2 * k) = pairs[k].1 := by
    show sig _ _ = _
    unfold sig
    rw [if_pos (by omega), show (2 * (k : Int)).toNat = 2 * k by omega, h1]; rfl
  have e2 : x (2 * k + 1) = pairs[k].2 := by
    show sig _ _ = _
    unfold sig
    rw [if_pos (by omega), show (2 * (k : Int) + 1).toNat = 2 * k + 1 by omega, h2]; rfl
  rw [e1, e2]
  rfl

/-- **C73** (integer samples, truncating divisions) For every integer signal the output and every intermediate value stay
within the range `±B` of the samples, so nothing overflows for any integer sample type. -/
theorem C73_downsample_int (B : Int) (pairs : List (Int × Int)) (h : ∀ p ∈ pairs, |p.1| ≤ B ∧ |p.2| ≤ B) :
    ∀ y ∈ outputs downsampleInt 0 pairs, |y| ≤ B := by
  have key : ∀ (pairs : List (Int × Int)) (x : Int), 4 * |x| ≤ B → (∀ p ∈ pairs, |p.1| ≤ B ∧ |p.2| ≤ B) →
      ∀ y ∈ outputs downsampleInt x pairs, |y| ≤ B := by
    intro pairs
    induction pairs with
    | nil => intro x _ _; simp [outputs]
    | cons p ps ih =>
      intro x hx h y hy
      have hp := h p (by simp)
      have t4 : 4 * |p.2.tdiv 4| ≤ |p.2| := by
        rw [← Int.natCast_natAbs, ← Int.natCast_natAbs, Int.natAbs_tdiv]
        have : ∀ a b : Nat, a.div b = a / b := fun _ _ => rfl
        rw [this]
        first | rw [show Int.natAbs 4 = 4 from rfl] | rw [show Int.natAbs 2 = 2 from rfl]
        omega
      have t2 : 2 * |p.1.tdiv 2| ≤ |p.1| := by
        rw [← Int.natCast_natAbs, ← Int.natCast_natAbs, Int.natAbs_tdiv]
        have : ∀ a b : Nat, a.div b = a / b := fun _ _ => rfl
        rw [this]
        first | rw [show Int.natAbs 4 = 4 from rfl] | rw [show Int.natAbs 2 = 2 from rfl]
        omega
      simp only [outputs, List.mem_cons] at hy
      rcases hy with rfl | hy
      · simp only [downsampleInt]
        have := abs_add_le (x + p.1.tdiv 2) (p.2.tdiv 4)
        have := abs_add_le x (p.1.tdiv 2)
        omega
      · exact ih _ (by simp only [downsampleInt]; omega) (fun q hq => h q (by simp [hq])) y hy
  rcases pairs with _ | ⟨p, ps⟩
  · simp [outputs]
  · have : 0 ≤ B := le_trans (abs_nonneg _) (h p (by simp)).1
    exact key _ 0 (by simpa using this) h

example : outputs downsample (0 : ℚ) [(4, 8), (4, 0)] = [4, 4] := by norm_num [outputs, downsample]

/-- **C66** `map`: 0 is mapped to `y1`, 1 to `y2`, and every value in [0, 1] to a value between them (whichever is
larger). -/
theorem C66_map {K : Type} [Field K] [LinearOrder K] [IsStrictOrderedRing K] (y1 y2 s : K) :
    mapRange y1 y2 0 = y1 ∧ mapRange y1 y2 1 = y2 ∧
    (0 ≤ s → s ≤ 1 → min y1 y2 ≤ mapRange y1 y2 s ∧ mapRange y1 y2 s ≤ max y1 y2) := by
  refine ⟨by simp [mapRange, linearInterpolate], by simp [mapRange, linearInterpolate], fun h0 h1 => ?_⟩
  simp only [mapRange, linearInterpolate]
  rcases le_total y1 y2 with h | h
  · rw [min_eq_left h, max_eq_right h]; constructor <;> nlinarith
  · rw [min_eq_right h, max_eq_left h]; constructor <;> nlinarith
end Verif
