import Verif.Model.Sin
import Verif.Proof.Osc
import Verif.Proof.SinTable
/-!
# Sine oscillator (C35)
-/
namespace Verif
open Phase Osc Rounding Sin

variable {fl fd : ℚ → ℚ}

/-- Linear interpolation of the sine between two points is off by at most an eighth of the square of their
distance. -/
theorem sin_interp (a b μ : ℝ) (h0 : 0 ≤ μ) (h1 : μ ≤ 1) :
    |(Real.sin a + μ * (Real.sin b - Real.sin a)) - Real.sin (a + μ * (b - a))| ≤ (b - a) ^ 2 / 8 := by
  have hq : μ * (1 - μ) ≤ 1 / 4 := by nlinarith [sq_nonneg (μ - 1 / 2)]
  have hsq := sq_nonneg (b - a)
  have conv1 : ConvexOn ℝ Set.univ (fun x : ℝ => x ^ 2 / 2 + Real.sin x) := by
    apply convexOn_univ_of_deriv2_nonneg
    · fun_prop
    · have : deriv (fun x : ℝ => x ^ 2 / 2 + Real.sin x) = fun x => x + Real.cos x := by
        funext x
        have h : HasDerivAt (fun x : ℝ => x ^ 2 / 2 + Real.sin x) (2 * x ^ (2 - 1) / 2 + Real.cos x) x := by
          have := ((hasDerivAt_pow 2 x).div_const 2).add (Real.hasDerivAt_sin x)
          exact_mod_cast this
        rw [h.deriv]; ring
      rw [this]; fun_prop
    · intro x
      have h2 : deriv (fun x : ℝ => x ^ 2 / 2 + Real.sin x) = fun x => x + Real.cos x := by
        funext x
        have h : HasDerivAt (fun x : ℝ => x ^ 2 / 2 + Real.sin x) (2 * x ^ (2 - 1) / 2 + Real.cos x) x := by
          have := ((hasDerivAt_pow 2 x).div_const 2).add (Real.hasDerivAt_sin x)
          exact_mod_cast this
        rw [h.deriv]; ring
      rw [Function.iterate_succ, Function.iterate_one, Function.comp_apply, h2]
      have : HasDerivAt (fun x : ℝ => x + Real.cos x) (1 + -Real.sin x) x :=
        (hasDerivAt_id x).add (Real.hasDerivAt_cos x)
      rw [this.deriv]
      linarith [Real.sin_le_one x]
  have conv2 : ConvexOn ℝ Set.univ (fun x : ℝ => x ^ 2 / 2 - Real.sin x) := by
    apply convexOn_univ_of_deriv2_nonneg
    · fun_prop
    · have : deriv (fun x : ℝ => x ^ 2 / 2 - Real.sin x) = fun x => x - Real.cos x := by
        funext x
        have h : HasDerivAt (fun x : ℝ => x ^ 2 / 2 - Real.sin x) (2 * x ^ (2 - 1) / 2 - Real.cos x) x := by
          have := ((hasDerivAt_pow 2 x).div_const 2).sub (Real.hasDerivAt_sin x)
          exact_mod_cast this
        rw [h.deriv]; ring
      rw [this]; fun_prop
    · intro x
      have h2 : deriv (fun x : ℝ => x ^ 2 / 2 - Real.sin x) = fun x => x - Real.cos x := by
        funext x
        have h : HasDerivAt (fun x : ℝ => x ^ 2 / 2 - Real.sin x) (2 * x ^ (2 - 1) / 2 - Real.cos x) x := by
          have := ((hasDerivAt_pow 2 x).div_const 2).sub (Real.hasDerivAt_sin x)
          exact_mod_cast this
        rw [h.deriv]; ring
      rw [Function.iterate_succ, Function.iterate_one, Function.comp_apply, h2]
      have : HasDerivAt (fun x : ℝ => x - Real.cos x) (1 - -Real.sin x) x :=
        (hasDerivAt_id x).sub (Real.hasDerivAt_cos x)
      rw [this.deriv]
      linarith [Real.neg_one_le_sin x]
  have e1 := conv1.2 (Set.mem_univ a) (Set.mem_univ b) (sub_nonneg.mpr h1) h0 (by ring)
  have e2 := conv2.2 (Set.mem_univ a) (Set.mem_univ b) (sub_nonneg.mpr h1) h0 (by ring)
  simp only [smul_eq_mul] at e1 e2
  have em : (1 - μ) * a + μ * b = a + μ * (b - a) := by ring
  rw [em] at e1 e2
  have key : (1 - μ) * (a ^ 2 / 2) + μ * (b ^ 2 / 2) - (a + μ * (b - a)) ^ 2 / 2 = μ * (1 - μ) * (b - a) ^ 2 / 2 := by
    ring
  have hb : μ * (1 - μ) * (b - a) ^ 2 / 2 ≤ (b - a) ^ 2 / 8 := by nlinarith
  rw [abs_le]
  constructor <;> linarith

/-- The literal in the source. -/
def lit (k : ℕ) : ℚ := (SinTable.table[k]?.getD 0 : ℤ) / 10 ^ 15

theorem lit_facts (k : ℕ) (hk : k < 1024) :
    |lit k| ≤ 1 ∧ |lit (k + 1)| ≤ 1 ∧ |lit (k + 1) - lit k| ≤ 62 / 10000 := by
  have hl := SinTable.table_length
  obtain ⟨h1, h2, h3⟩ := SinTable.table_near k (by rw [hl]; omega)
  have g : ∀ j (h : j < SinTable.table.length), SinTable.table[j]?.getD 0 = SinTable.table[j] := by
    intro j h; simp [h]
  unfold lit
  rw [g k (by rw [hl]; omega), g (k + 1) (by rw [hl]; omega)]
  generalize SinTable.table[k]'(by rw [hl]; omega) = x at *
  generalize SinTable.table[k + 1]'(by rw [hl]; omega) = y at *
  have h1' : |(x : ℚ)| ≤ 10 ^ 15 := by exact_mod_cast h1
  have h2' : |(y : ℚ)| ≤ 10 ^ 15 := by exact_mod_cast h2
  have h3' : |(y : ℚ) - x| ≤ 62 * 10 ^ 11 := by exact_mod_cast h3
  have hp : (0 : ℚ) < 10 ^ 15 := by norm_num
  refine ⟨?_, ?_, ?_⟩
  · rw [abs_div, abs_of_pos hp, div_le_one hp]; exact h1'
  · rw [abs_div, abs_of_pos hp, div_le_one hp]; exact h2'
  · rw [← sub_div, abs_div, abs_of_pos hp, div_le_iff₀ hp]; exact h3'.trans (by norm_num)

theorem one_rep64' : Rep 53 (-1074) 1 := ⟨1, 0, by norm_num, by norm_num, by norm_num⟩

theorem tiny32 : (2 : ℚ) ^ (-149 : ℤ) / 2 ≤ 1 / 2 ^ 60 := by
  have h1 : (2 : ℚ) ^ (-149 : ℤ) ≤ (2 : ℚ) ^ (-60 : ℤ) := zpow_le_zpow_right₀ (by norm_num) (by norm_num)
  have h2 : (2 : ℚ) ^ (-60 : ℤ) = 1 / 2 ^ 60 := by norm_num
  have h3 := two_zpow_pos (-149)
  rw [h2] at h1
  linarith

theorem tiny64 : (2 : ℚ) ^ (-1074 : ℤ) / 2 ≤ 1 / 2 ^ 60 := by
  have h1 : (2 : ℚ) ^ (-1074 : ℤ) ≤ (2 : ℚ) ^ (-60 : ℤ) := zpow_le_zpow_right₀ (by norm_num) (by norm_num)
  have h2 : (2 : ℚ) ^ (-60 : ℤ) = 1 / 2 ^ 60 := by norm_num
  have h3 := two_zpow_pos (-1074)
  rw [h2] at h1
  linarith

/-- The stored `float` is the literal up to `2^-24 + 2^-50`. -/
theorem entry_close (L : Lawful 24 (-149) fl) (D : Lawful 53 (-1074) fd) {x : ℚ} (h : |x| ≤ 1) :
    |fl (fd x)| ≤ 1 ∧ |fl (fd x) - x| ≤ 1 / 2 ^ 24 + 1 / 2 ^ 50 := by
  have hd : |fd x| ≤ 1 := D.abs_le_of_rep one_rep64' h
  refine ⟨L.abs_le_of_rep one_rep hd, ?_⟩
  have e1 : |fl (fd x) - fd x| ≤ 1 / 2 ^ 24 := by
    refine (L.err _).trans (max_le ?_ (tiny32.trans (by norm_num)))
    gcongr
  have e2 : |fd x - x| ≤ 1 / 2 ^ 50 := by
    refine (D.err _).trans (max_le ?_ (tiny64.trans (by norm_num)))
    have : |x| / 2 ^ 53 ≤ 1 / 2 ^ 53 := by gcongr
    refine this.trans (by norm_num)
  have := abs_sub_le (fl (fd x)) (fd x) x
  linarith

/-- Rounded linear interpolation between two close numbers of `[-1, 1]` stays in `[-1, 1]` and is exact up
to `1.1 · 2^-24`. -/
theorem interp_round (L : Lawful 24 (-149) fl) {v1 v2 μ : ℚ} (r1 : Rep 24 (-149) v1)
    (h1 : |v1| ≤ 1) (h2 : |v2| ≤ 1) (hd : |v2 - v1| ≤ 1 / 128) (m0 : 0 ≤ μ) (m1 : μ ≤ 1) :
    |linear_interpolate fl v1 v2 μ| ≤ 1
    ∧ |linear_interpolate fl v1 v2 μ - (v1 + μ * (v2 - v1))| ≤ 11 / 10 / 2 ^ 24 := by
  have r128 : Rep 24 (-149) (1 / 128) := ⟨1, -7, by norm_num, by norm_num, by norm_num⟩
  have dabs := L.abs_le_of_rep r128 hd
  have derr : |fl (v2 - v1) - (v2 - v1)| ≤ 1 / 2 ^ 31 := by
    refine (L.err _).trans (max_le ?_ (tiny32.trans (by norm_num)))
    have : |v2 - v1| / 2 ^ 24 ≤ (1 / 128) / 2 ^ 24 := by gcongr
    exact this.trans (by norm_num)
  -- the difference does not overshoot the unit interval
  have dlo : -1 ≤ v1 + fl (v2 - v1) := by
    rw [abs_le] at h1 h2 dabs
    rcases le_or_gt v1 (-1 / 2) with h | h
    · have hs := (sterbenz (rep_neg r1) (by linarith) (by linarith)).1
      have := L.ge_of_rep (x := v2 - v1) hs (by linarith)
      linarith
    · linarith
  have dhi : v1 + fl (v2 - v1) ≤ 1 := by
    rw [abs_le] at h1 h2 dabs
    rcases le_or_gt (1 / 2) v1 with h | h
    · have hs := rep_neg (sterbenz r1 h (by linarith)).1
      have := L.le_of_rep (x := v2 - v1) hs (by linarith)
      linarith
    · linarith
  have drep : Rep 24 (-149) (fl (v2 - v1)) := L.rep _
  unfold linear_interpolate
  generalize fl (v2 - v1) = d at *
  have mabs : |μ * d| ≤ |d| := by rw [abs_mul, abs_of_nonneg m0]; nlinarith [abs_nonneg d]
  have mabs2 : |μ * d| ≤ 1 / 128 := mabs.trans dabs
  have merr : |fl (μ * d) - μ * d| ≤ 1 / 2 ^ 31 := by
    refine (L.err _).trans (max_le ?_ (tiny32.trans (by norm_num)))
    have : |μ * d| / 2 ^ 24 ≤ (1 / 128) / 2 ^ 24 := by gcongr
    exact this.trans (by norm_num)
  have fabs : |fl (μ * d)| ≤ 1 / 128 := L.abs_le_of_rep r128 mabs2
  have sgn : (0 ≤ d → 0 ≤ fl (μ * d) ∧ fl (μ * d) ≤ d) ∧ (d ≤ 0 → d ≤ fl (μ * d) ∧ fl (μ * d) ≤ 0) := by
    constructor
    · intro h
      exact ⟨L.nonneg (by positivity), L.le_of_rep drep (by nlinarith)⟩
    · intro h
      exact ⟨L.ge_of_rep drep (by nlinarith), L.nonpos (by nlinarith)⟩
  generalize fl (μ * d) = m at *
  have hsum : |v1 + m| ≤ 1 := by
    rw [abs_le] at h1 ⊢
    rcases le_total 0 d with h | h
    · have := sgn.1 h; constructor <;> linarith
    · have := sgn.2 h; constructor <;> linarith
  refine ⟨L.abs_le_of_rep one_rep hsum, ?_⟩
  have serr : |fl (v1 + m) - (v1 + m)| ≤ 1 / 2 ^ 24 := by
    refine (L.err _).trans (max_le ?_ (tiny32.trans (by norm_num)))
    gcongr
  have md : |μ * d - μ * (v2 - v1)| ≤ 1 / 2 ^ 31 := by
    rw [← mul_sub, abs_mul, abs_of_nonneg m0]
    nlinarith [abs_nonneg (d - (v2 - v1))]
  have split : fl (v1 + m) - (v1 + μ * (v2 - v1))
      = (fl (v1 + m) - (v1 + m)) + ((m - μ * d) + (μ * d - μ * (v2 - v1))) := by ring
  rw [split]
  have t1 := abs_add_le (fl (v1 + m) - (v1 + m)) ((m - μ * d) + (μ * d - μ * (v2 - v1)))
  have t2 := abs_add_le (m - μ * d) (μ * d - μ * (v2 - v1))
  norm_num at *
  linarith

theorem mu_exact (L : Lawful 24 (-149) fl) (j : ℕ) (hj : j < 2 ^ 22) :
    fl (fl (j : ℚ) * factor fl) = j / 2 ^ 22 := by
  have hj' : |(j : ℤ)| ≤ 2 ^ 24 := by
    rw [abs_of_nonneg (by positivity)]
    have : j ≤ 2 ^ 24 := by omega
    exact_mod_cast this
  unfold factor denom
  have f1 : fl (j : ℚ) = j := L.fix _ ⟨j, 0, hj', by norm_num, by push_cast; simp⟩
  have f2 : fl ((1 <<< 22 : ℕ) : ℚ) = 2 ^ 22 := by
    have : (1 <<< 22 : ℕ) = 4194304 := by decide
    rw [this]
    have : ((4194304 : ℕ) : ℚ) = 2 ^ 22 := by norm_num
    rw [this]
    exact L.fix _ ⟨1, 22, by norm_num, by norm_num, by norm_num⟩
  have f3 : fl (1 / 2 ^ 22) = 1 / 2 ^ 22 := L.fix _ ⟨1, -22, by norm_num, by norm_num, by norm_num⟩
  rw [f1, f2, f3, mul_one_div]
  exact L.fix _ ⟨j, -22, hj', by norm_num, by rw [zpow_neg, div_eq_mul_inv]; push_cast; norm_num⟩

/-- Adding up the errors. -/
theorem combine {v v1 v2 x y s1 s2 S μ : ℝ} (m0 : 0 ≤ μ) (m1 : μ ≤ 1)
    (c2 : |v - (v1 + μ * (v2 - v1))| ≤ 11 / 10 / 2 ^ 24)
    (a2 : |v1 - x| ≤ 1 / 2 ^ 24 + 1 / 2 ^ 50) (b2 : |v2 - y| ≤ 1 / 2 ^ 24 + 1 / 2 ^ 50)
    (h1 : |x - s1| ≤ 2 / 10 ^ 11) (h2 : |y - s2| ≤ 2 / 10 ^ 11)
    (h3 : |s1 + μ * (s2 - s1) - S| ≤ 48 / 10 ^ 7) : |v - S| ≤ 5 / 10 ^ 6 := by
  have comb : ∀ {a b e : ℝ}, |a| ≤ e → |b| ≤ e → |(1 - μ) * a + μ * b| ≤ e := by
    intro a b e ha hb
    rw [abs_le] at *
    constructor <;> nlinarith
  have d1 := comb a2 b2
  have d2 := comb h1 h2
  have split : v - S = (v - (v1 + μ * (v2 - v1))) + (((1 - μ) * (v1 - x) + μ * (v2 - y))
      + (((1 - μ) * (x - s1) + μ * (y - s2)) + ((s1 + μ * (s2 - s1)) - S))) := by ring
  rw [split]
  have t1 := abs_add_le (v - (v1 + μ * (v2 - v1))) (((1 - μ) * (v1 - x) + μ * (v2 - y))
      + (((1 - μ) * (x - s1) + μ * (y - s2)) + ((s1 + μ * (s2 - s1)) - S)))
  have t2 := abs_add_le ((1 - μ) * (v1 - x) + μ * (v2 - y))
      (((1 - μ) * (x - s1) + μ * (y - s2)) + ((s1 + μ * (s2 - s1)) - S))
  have t3 := abs_add_le ((1 - μ) * (x - s1) + μ * (y - s2)) ((s1 + μ * (s2 - s1)) - S)
  have n1 : (11 : ℝ) / 10 / 2 ^ 24 ≤ 66 / 10 ^ 9 := by norm_num
  have n2 : (1 : ℝ) / 2 ^ 24 + 1 / 2 ^ 50 ≤ 60 / 10 ^ 9 := by norm_num
  have n3 : (48 : ℝ) / 10 ^ 7 + 66 / 10 ^ 9 + 60 / 10 ^ 9 + 2 / 10 ^ 11 ≤ 5 / 10 ^ 6 := by norm_num
  linarith

theorem pi_gap : (Real.pi / 512) ^ 2 / 8 ≤ 48 / 10 ^ 7 := by
  have h1 := Real.pi_gt_d6
  have h2 := Real.pi_lt_d6
  nlinarith

/-- C35: for every one of the `2^32` phases the sine oscillator reads inside its table, returns a value in
`[-1, 1]`, and is within `5e-6` of the true sine of the phase angle. -/
theorem C35_sine (L : Lawful 24 (-149) fl) (D : Lawful 53 (-1074) fd) (p : Phase.Rep) :
    ∃ v, sin_gen fl fd p = .ok v ∧ |v| ≤ 1
      ∧ |(v : ℝ) - Real.sin (2 * Real.pi * (p.toNat / 2 ^ 32))| ≤ 5 / 10 ^ 6 := by
  have hp := p.isLt
  have hl := SinTable.table_length
  have hk : (p >>> 22).toNat = p.toNat / 2 ^ 22 := by
    rw [BitVec.toNat_ushiftRight, Nat.shiftRight_eq_div_pow]
  have hmask : (p &&& mask).toNat = p.toNat % 2 ^ 22 := by
    rw [BitVec.toNat_and]
    have : mask.toNat = 2 ^ 22 - 1 := by decide
    rw [this, Nat.and_two_pow_sub_one_eq_mod]
  have hklt : p.toNat / 2 ^ 22 < 1024 := by omega
  have hmlt : p.toNat % 2 ^ 22 < 2 ^ 22 := by omega
  have hdecomp : (p.toNat : ℝ) = ((p.toNat / 2 ^ 22 : ℕ) : ℝ) * 2 ^ 22 + ((p.toNat % 2 ^ 22 : ℕ) : ℝ) := by
    have := Nat.div_add_mod p.toNat (2 ^ 22)
    have h2 : ((2 ^ 22 * (p.toNat / 2 ^ 22) + p.toNat % 2 ^ 22 : ℕ) : ℝ) = p.toNat := by rw [this]
    push_cast at h2 ⊢
    linarith
  have hmu : fl (ofU32 fl (p &&& mask) * factor fl) = (p.toNat % 2 ^ 22 : ℕ) / 2 ^ 22 := by
    unfold ofU32
    rw [hmask]
    exact mu_exact L _ hmlt
  generalize p.toNat / 2 ^ 22 = k at *
  generalize p.toNat % 2 ^ 22 = j at *
  have g : ∀ i, i < 1025 → readAt (entries fl fd) i = .ok (fl (fd (lit i))) := by
    intro i hi
    unfold readAt entries lit
    rw [List.getElem?_map, List.getElem?_eq_getElem (by rw [hl]; omega)]
    rfl
  have hs : sin_gen fl fd p = .ok (linear_interpolate fl (fl (fd (lit k))) (fl (fd (lit (k + 1))))
      ((j : ℕ) / 2 ^ 22)) := by
    unfold sin_gen table_lookup
    simp only
    rw [hk, g k (by omega), g (k + 1) (by omega), hmu]
    rfl
  obtain ⟨l1, l2, l3⟩ := lit_facts k hklt
  obtain ⟨a1, a2⟩ := entry_close L D l1
  obtain ⟨b1, b2⟩ := entry_close L D l2
  have hsin1 := SinTable.table_sin k (by rw [hl]; omega)
  have hsin2 := SinTable.table_sin (k + 1) (by rw [hl]; omega)
  have hlit : ∀ i (h : i < SinTable.table.length), ((lit i : ℚ) : ℝ) = ((SinTable.table[i] : ℤ) : ℝ) / 10 ^ 15 := by
    intro i h; unfold lit; rw [List.getElem?_eq_getElem h]; push_cast; rfl
  rw [← hlit k (by rw [hl]; omega)] at hsin1
  rw [← hlit (k + 1) (by rw [hl]; omega)] at hsin2
  have r1 : Rep 24 (-149) (fl (fd (lit k))) := L.rep _
  refine ⟨_, hs, ?_⟩
  generalize lit k = x at *
  generalize lit (k + 1) = y at *
  generalize fl (fd x) = v1 at *
  generalize fl (fd y) = v2 at *
  have hj0 : (0 : ℚ) ≤ (j : ℕ) / 2 ^ 22 := by positivity
  have hj1 : ((j : ℕ) : ℚ) / 2 ^ 22 ≤ 1 := by
    rw [div_le_one (by norm_num)]; exact_mod_cast hmlt.le
  have hvd : |v2 - v1| ≤ 1 / 128 := by
    rw [abs_le] at *
    constructor <;> norm_num at * <;> linarith
  obtain ⟨c1, c2⟩ := interp_round L r1 a1 b1 hvd hj0 hj1
  refine ⟨c1, ?_⟩
  generalize linear_interpolate fl v1 v2 ((j : ℕ) / 2 ^ 22) = v at *
  -- to the reals
  have hμ : ((((j : ℕ) : ℚ) / 2 ^ 22 : ℚ) : ℝ) = (j : ℝ) / 2 ^ 22 := by push_cast; rfl
  have c2' : |(v : ℝ) - (v1 + (j : ℝ) / 2 ^ 22 * (v2 - v1))| ≤ 11 / 10 / 2 ^ 24 := by
    have h := (Rat.cast_le (K := ℝ)).mpr c2
    push_cast at h
    exact h
  have a2' : |(v1 : ℝ) - x| ≤ 1 / 2 ^ 24 + 1 / 2 ^ 50 := by
    have h := (Rat.cast_le (K := ℝ)).mpr a2
    push_cast at h
    exact h
  have b2' : |(v2 : ℝ) - y| ≤ 1 / 2 ^ 24 + 1 / 2 ^ 50 := by
    have h := (Rat.cast_le (K := ℝ)).mpr b2
    push_cast at h
    exact h
  have m0 : (0 : ℝ) ≤ (j : ℝ) / 2 ^ 22 := by positivity
  have m1 : (j : ℝ) / 2 ^ 22 ≤ 1 := by rw [div_le_one (by norm_num)]; exact_mod_cast hmlt.le
  have hint := sin_interp (k * (Real.pi / 512)) ((k + 1 : ℕ) * (Real.pi / 512)) ((j : ℝ) / 2 ^ 22) m0 m1
  have hang : (k : ℝ) * (Real.pi / 512) + (j : ℝ) / 2 ^ 22 * ((k + 1 : ℕ) * (Real.pi / 512) - k * (Real.pi / 512))
      = 2 * Real.pi * (p.toNat / 2 ^ 32) := by
    rw [hdecomp]; push_cast; ring
  rw [hang] at hint
  have hgap : ((k + 1 : ℕ) * (Real.pi / 512) - k * (Real.pi / 512)) ^ 2 / 8 ≤ 48 / 10 ^ 7 := by
    have e : ((k + 1 : ℕ) * (Real.pi / 512) - k * (Real.pi / 512)) = Real.pi / 512 := by push_cast; ring
    rw [e]
    exact pi_gap
  exact combine m0 m1 c2' a2' b2' hsin1 hsin2 (hint.trans hgap)

end Verif
