import Verif.Props.Osc
/-!
# Triangle oscillators (C34)
-/
namespace Verif
open Phase Osc Rounding

variable {fl fd : ℚ → ℚ}

/-- The distance of a phase from the start of the turn, around the circle. -/
def circDist (p : Phase.Rep) : ℕ := min p.toNat (2 ^ 32 - p.toNat)

theorem absI32_spec (p : Phase.Rep) :
    (p.toNat ≠ 2 ^ 31 → absI32 p = .ok (circDist p : ℤ)) ∧
    (p.toNat = 2 ^ 31 → absI32 p = .error .signedOverflow) := by
  have hp := p.isLt
  have hi : p.toInt = if p.toNat < 2 ^ 31 then (p.toNat : ℤ) else p.toNat - 2 ^ 32 := by
    rw [BitVec.toInt_eq_toNat_cond]
    split <;> split <;> push_cast <;> omega
  constructor
  · intro h
    unfold absI32 circDist
    rw [hi]
    by_cases h1 : p.toNat < 2 ^ 31
    · rw [if_pos h1, if_neg (by omega)]
      congr 1
      omega
    · rw [if_neg h1, if_pos (by omega), if_neg (by omega)]
      congr 1
      omega
  · intro h
    unfold absI32
    rw [if_neg (by omega)] at hi
    have h1 : p.toInt < 0 := by omega
    have h2 : p.toInt = -2 ^ 31 := by omega
    rw [if_pos h1, if_pos h2]

theorem half_rep : Rep 24 (-149) (1 / 2) := ⟨1, -1, by norm_num, by norm_num, by norm_num⟩
theorem threeHalves_rep : Rep 24 (-149) (3 / 2) := ⟨3, -1, by norm_num, by norm_num, by norm_num⟩

/-- The band-limiting ramp is between `0` and `1/2` and vanishes away from the corner. -/
theorem blamp_bounds (L : Lawful 24 (-149) fl) (p dt : Phase.Rep) (hdt : dt.toNat ≤ 2 ^ 30) :
    0 ≤ poly_blamp fl p dt 4 ∧ poly_blamp fl p dt 4 ≤ 1 / 2
    ∧ (dt.toNat < circDist p → poly_blamp fl p dt 4 = 0) := by
  have hpl := p.isLt
  have he : end_.toNat = 2 ^ 32 - 1 := by decide
  have hd0 : 0 ≤ toFloat fl dt := by
    unfold toFloat
    have := L.nonneg (x := dt.toNat) (by positivity)
    positivity
  have hd1 : toFloat fl dt ≤ 1 / 4 := by
    unfold toFloat
    have hr : Rep 24 (-149) ((2 : ℚ) ^ (30 : ℤ)) := rep_zpow (by norm_num)
    have e30 : (2 : ℚ) ^ (30 : ℤ) = 1073741824 := by norm_num
    rw [e30] at hr
    have := L.le_of_rep (x := dt.toNat) hr (by exact_mod_cast hdt)
    rw [div_le_iff₀ (by norm_num)]
    refine this.trans (by norm_num)
  have hc0 : 0 ≤ fl (4 / 3) := L.nonneg (by norm_num)
  have hc1 : fl (4 / 3) ≤ 3 / 2 := L.le_of_rep threeHalves_rep (by norm_num)
  have hneg : fl (-4 / 3) = -fl (4 / 3) := by rw [neg_div, L.neg]
  have hk0 : 0 ≤ fl (fl (4 / 3) * toFloat fl dt) := L.nonneg (by positivity)
  have hk1 : fl (fl (4 / 3) * toFloat fl dt) ≤ 1 / 2 := L.le_of_rep half_rep (by nlinarith)
  -- multiplying by numbers of the unit interval
  have step : ∀ {k t : ℚ}, 0 ≤ k → k ≤ 1 / 2 → 0 ≤ t → t ≤ 1 → 0 ≤ fl (k * t) ∧ fl (k * t) ≤ 1 / 2 := by
    intro k t h1 h2 h3 h4
    exact ⟨L.nonneg (by positivity), L.le_of_rep half_rep (by nlinarith)⟩
  unfold poly_blamp
  by_cases h : p.ult dt = true
  · rw [if_pos h]
    rw [BitVec.ult, decide_eq_true_eq] at h
    obtain ⟨h0, h1⟩ := ratio_unit L (p := p) (dt := dt) h.le (by omega)
    generalize fl (ofU32 fl p / ofU32 fl dt) = u at *
    have ht0 : -1 ≤ fl (u - 1) := L.ge_of_rep (rep_neg one_rep) (by linarith)
    have ht1 : fl (u - 1) ≤ 0 := L.nonpos (by linarith)
    simp only [hneg]
    generalize fl (u - 1) = t at *
    rw [neg_mul, L.neg]
    generalize fl (fl (4 / 3) * toFloat fl dt) = k at *
    rw [neg_mul]
    obtain ⟨a0, a1⟩ := step (k := k) (t := -t) hk0 hk1 (by linarith) (by linarith)
    rw [mul_neg] at a0 a1
    generalize fl (-(k * t)) = a at *
    obtain ⟨b0, b1⟩ := step (k := a) (t := -t) a0 a1 (by linarith) (by linarith)
    have e2 : fl (a * t) = -fl (a * -t) := by rw [← L.neg]; congr 1; ring
    rw [e2]
    generalize fl (a * -t) = b at *
    obtain ⟨c0, c1⟩ := step (k := b) (t := -t) b0 b1 (by linarith) (by linarith)
    have e3 : -b * t = b * -t := by ring
    rw [e3]
    refine ⟨c0, c1, fun hc => ?_⟩
    unfold circDist at hc
    omega
  · rw [if_neg h]
    rw [BitVec.ult, decide_eq_true_eq] at h
    by_cases h2 : (end_ - dt).ult p = true
    · rw [if_pos h2]
      rw [BitVec.ult, decide_eq_true_eq, BitVec.toNat_sub, he] at h2
      have hs : (end_ - p).toNat = 2 ^ 32 - 1 - p.toNat := by
        rw [BitVec.toNat_sub, he]; omega
      obtain ⟨h0, h1⟩ := ratio_unit L (p := end_ - p) (dt := dt) (by omega) (by omega)
      generalize fl (ofU32 fl (end_ - p) / ofU32 fl dt) = u at *
      obtain ⟨t0, t1⟩ := fl_unit L (x := -u + 1) (by linarith) (by linarith)
      simp only
      generalize fl (-u + 1) = t at *
      generalize fl (fl (4 / 3) * toFloat fl dt) = k at *
      obtain ⟨a0, a1⟩ := step (k := k) (t := t) hk0 hk1 t0 t1
      generalize fl (k * t) = a at *
      obtain ⟨b0, b1⟩ := step (k := a) (t := t) a0 a1 t0 t1
      generalize fl (a * t) = b at *
      obtain ⟨c0, c1⟩ := step (k := b) (t := t) b0 b1 t0 t1
      refine ⟨c0, c1, fun hc => ?_⟩
      unfold circDist at hc
      omega
    · rw [if_neg h2]
      exact ⟨le_rfl, by norm_num, fun _ => rfl⟩

/-- The naive triangle before the final conversion to `float`. -/
theorem tri_naive (L : Lawful 24 (-149) fl) (D : Lawful 53 (-1074) fd) (n : ℕ) (hn : n ≤ 2 ^ 31) :
    ∀ r, r = fd (fl (fl ((n : ℤ) : ℚ) * tri_x fl) - 1) →
    (-1 ≤ r ∧ r ≤ 1 ∧ (n ≤ 2 ^ 30 → r ≤ 0) ∧ (2 ^ 29 ≤ n → -1 / 2 ≤ r)) := by
  rintro r rfl
  rw [tri_x_eq L]
  have r29 : Rep 24 (-149) 536870912 := by
    have : Rep 24 (-149) ((2 : ℚ) ^ (29 : ℤ)) := rep_zpow (by norm_num)
    norm_num at this; exact this
  have r30 : Rep 24 (-149) 1073741824 := by
    have : Rep 24 (-149) ((2 : ℚ) ^ (30 : ℤ)) := rep_zpow (by norm_num)
    norm_num at this; exact this
  have r31 : Rep 24 (-149) 2147483648 := by
    have : Rep 24 (-149) ((2 : ℚ) ^ (31 : ℤ)) := rep_zpow (by norm_num)
    norm_num at this; exact this
  have e3 : (1 : ℚ) / 2 ^ 30 = 1 / 1073741824 := by norm_num
  rw [e3, Int.cast_natCast]
  have h0 : 0 ≤ fl (n : ℚ) := L.nonneg (by positivity)
  have h2 : fl (n : ℚ) ≤ 2147483648 := L.le_of_rep r31 (by exact_mod_cast hn)
  have hlo : n ≤ 2 ^ 30 → fl (n : ℚ) ≤ 1073741824 := fun h => L.le_of_rep r30 (by exact_mod_cast h)
  have hhi : 2 ^ 29 ≤ n → 536870912 ≤ fl (n : ℚ) := fun h => L.ge_of_rep r29 (by exact_mod_cast h)
  generalize fl (n : ℚ) = x at *
  refine ⟨?_, ?_, ?_, ?_⟩
  · refine D.ge_of_rep (rep_neg one_rep64) ?_
    have := L.nonneg (x := x * (1 / 1073741824)) (by positivity)
    linarith
  · refine D.le_of_rep one_rep64 ?_
    have := L.le_of_rep (x := x * (1 / 1073741824)) two_rep (by linarith)
    linarith
  · intro h
    refine D.nonpos ?_
    have h3 := hlo h
    have := L.le_of_rep (x := x * (1 / 1073741824)) one_rep (by linarith)
    linarith
  · intro h
    have h3 := hhi h
    have hr : Rep 53 (-1074) (-1 / 2) := ⟨-1, -1, by norm_num, by norm_num, by norm_num⟩
    refine D.ge_of_rep hr ?_
    have := L.ge_of_rep (x := x * (1 / 1073741824)) half_rep (by linarith)
    linarith

/-- C34 (naive triangle): for every phase but `2^31` the output is defined, within `[-1, 1]`, the same for `p`
and `-p` (symmetric about the start of the turn); at phase `2^31` — the top of the triangle — it negates
`INT_MIN`, which is undefined. -/
theorem C34_basic_triangle_partial (L : Lawful 24 (-149) fl) (D : Lawful 53 (-1074) fd) (p : Phase.Rep) :
    (p.toNat ≠ 2 ^ 31 → ∃ v, basic_triangle fl fd p = .ok v ∧ |v| ≤ 1 ∧ basic_triangle fl fd (-p) = .ok v)
    ∧ (p.toNat = 2 ^ 31 → basic_triangle fl fd p = .error .signedOverflow) := by
  have hp := p.isLt
  constructor
  · intro h
    have e1 := (absI32_spec p).1 h
    have hneg : (-p).toNat = (2 ^ 32 - p.toNat) % 2 ^ 32 := by rw [BitVec.toNat_neg]
    have hd : circDist (-p) = circDist p := by unfold circDist; rw [hneg]; omega
    have e2 := (absI32_spec (-p)).1 (by omega)
    rw [hd] at e2
    have hn := tri_naive L D (circDist p) (by unfold circDist; omega) _ rfl
    refine ⟨fl (fd (fl (fl ((circDist p : ℤ) : ℚ) * tri_x fl) - 1)), ?_, ?_, ?_⟩
    · unfold basic_triangle; rw [e1]; rfl
    · exact L.abs_le_of_rep one_rep (abs_le.mpr ⟨hn.1, hn.2.1⟩)
    · unfold basic_triangle; rw [e2]; rfl
  · intro h
    unfold basic_triangle
    rw [(absI32_spec p).2 h]
    rfl

/-- C34 (band-limited triangle): for every increment up to a quarter turn and every phase but `2^30 + 1` the
output is defined and within `[-1, 1]`; at phase `2^30 + 1` it is undefined. -/
theorem C34_triangle_partial (L : Lawful 24 (-149) fl) (D : Lawful 53 (-1074) fd) (p dt : Phase.Rep) :
    (dt.toNat ≤ 2 ^ 30 → p.toNat ≠ 2 ^ 30 + 1 → ∃ v, triangle fl fd p dt = .ok v ∧ |v| ≤ 1)
    ∧ (p.toNat = 2 ^ 30 + 1 → triangle fl fd p dt = .error .signedOverflow) := by
  have hpl := p.isLt
  have hE1 : edge1.toNat = 1073741823 := by decide
  have hE2 : edge2.toNat = 3221225472 := by decide
  have s1 : (p + edge1).toNat = (p.toNat + 1073741823) % 2 ^ 32 := by rw [BitVec.toNat_add, hE1]
  have s2 : (p + edge2).toNat = (p.toNat + 3221225472) % 2 ^ 32 := by rw [BitVec.toNat_add, hE2]
  constructor
  · intro hdt hne
    have e1 := (absI32_spec (p + edge1)).1 (by omega)
    have hn := tri_naive L D (circDist (p + edge1)) (by unfold circDist; omega) _ rfl
    obtain ⟨b0, b1, bz⟩ := blamp_bounds L (p + edge1) dt hdt
    obtain ⟨c0, c1, cz⟩ := blamp_bounds L (p + edge2) dt hdt
    have key : dt.toNat < circDist (p + edge2) ∨ 2 ^ 29 ≤ circDist (p + edge1) := by
      unfold circDist; rw [s1, s2]; omega
    refine ⟨fl (fd (fd (fd (fl (fl ((circDist (p + edge1) : ℤ) : ℚ) * tri_x fl) - 1)
      + poly_blamp fl (p + edge1) dt 4) - poly_blamp fl (p + edge2) dt 4)), ?_, ?_⟩
    · unfold triangle; rw [e1]; rfl
    · generalize fd (fl (fl ((circDist (p + edge1) : ℤ) : ℚ) * tri_x fl) - 1) = r at *
      generalize poly_blamp fl (p + edge1) dt 4 = b at *
      generalize poly_blamp fl (p + edge2) dt 4 = c at *
      obtain ⟨n1, n2, n3, n4⟩ := hn
      have hu : -1 ≤ fd (r + b) ∧ fd (r + b) ≤ 1 ∧ (2 ^ 29 ≤ circDist (p + edge1) → -1 / 2 ≤ fd (r + b)) := by
        refine ⟨D.ge_of_rep (rep_neg one_rep64) (by linarith), D.le_of_rep one_rep64 ?_, ?_⟩
        · by_cases hb : dt.toNat < circDist (p + edge1)
          · rw [bz hb]; linarith
          · have := n3 (by omega); linarith
        · intro hc
          have hr : Rep 53 (-1074) (-1 / 2) := ⟨-1, -1, by norm_num, by norm_num, by norm_num⟩
          exact D.ge_of_rep hr (by linarith [n4 hc])
      obtain ⟨u1, u2, u3⟩ := hu
      generalize fd (r + b) = u at *
      have : |u - c| ≤ 1 := by
        rw [abs_le]
        refine ⟨?_, by linarith⟩
        rcases key with hk | hk
        · rw [cz hk]; linarith
        · have := u3 hk; linarith
      exact L.abs_le_of_rep one_rep (D.abs_le_of_rep one_rep64 this)
  · intro h
    unfold triangle
    rw [(absI32_spec (p + edge1)).2 (by omega)]
    rfl

/-- The band-limited triangle meets the hypotheses for a 1 kHz tone at 44.1 kHz at the start of the turn. -/
example : (97391548#32).toNat ≤ 2 ^ 30 ∧ (0#32).toNat ≠ 2 ^ 30 + 1 := by decide

end Verif
