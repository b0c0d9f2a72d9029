import Verif.Proof.Osc
/-!
# Oscillators (C31–C34)

All statements are about the rounded arithmetic: `fl` is any lawful `float` rounding and `fd` any lawful
`double` rounding; `Rounding.fl32_lawful` and `Rounding.fl64_lawful` show IEEE-754 to-nearest is one.
-/
namespace Verif
open Phase Osc Rounding

variable {fl fd : ℚ → ℚ}

theorem one_rep64 : Rep 53 (-1074) 1 := ⟨1, 0, by norm_num, by norm_num, by norm_num⟩

/-- The naive saw before the conversion of the result to `float`. -/
theorem saw_naive (L : Lawful 24 (-149) fl) (D : Lawful 53 (-1074) fd) (p : Phase.Rep) :
    ∀ r, r = fd (fl (ofU32 fl p * saw_x fl) - 1) →
    -1 ≤ r ∧ r ≤ 1 ∧ (p.toNat ≤ 2 ^ 31 → r ≤ 0) ∧ (2 ^ 31 ≤ p.toNat → 0 ≤ r) := by
  rintro r rfl
  have hp := p.isLt
  rw [saw_x_eq L]
  have h0 := ofU32_nonneg L p
  have hr31 : Rep 24 (-149) ((2 : ℚ) ^ (31 : ℤ)) := rep_zpow (by norm_num)
  have hr32 : Rep 24 (-149) ((2 : ℚ) ^ (32 : ℤ)) := rep_zpow (by norm_num)
  have e31 : (2 : ℚ) ^ (31 : ℤ) = 2147483648 := by norm_num
  have e32 : (2 : ℚ) ^ (32 : ℤ) = 4294967296 := by norm_num
  have e3 : (1 : ℚ) / 2 ^ 31 = 1 / 2147483648 := by norm_num
  rw [e31] at hr31
  rw [e32] at hr32
  rw [e3]
  have h2 : ofU32 fl p ≤ 4294967296 := L.le_of_rep hr32 (by exact_mod_cast hp.le)
  have hlo : p.toNat ≤ 2 ^ 31 → ofU32 fl p ≤ 2147483648 := fun h => L.le_of_rep hr31 (by exact_mod_cast h)
  have hhi : 2 ^ 31 ≤ p.toNat → 2147483648 ≤ ofU32 fl p := fun h => L.ge_of_rep hr31 (by exact_mod_cast h)
  generalize ofU32 fl p = x at *
  refine ⟨?_, ?_, ?_, ?_⟩
  · refine D.ge_of_rep (rep_neg one_rep64) ?_
    have := L.nonneg (x := x * (1 / 2147483648)) (by positivity)
    linarith
  · refine D.le_of_rep one_rep64 ?_
    have := L.le_of_rep (x := x * (1 / 2147483648)) two_rep (by linarith)
    linarith
  · intro h
    refine D.nonpos ?_
    have h3 := hlo h
    have := L.le_of_rep (x := x * (1 / 2147483648)) one_rep (by linarith)
    linarith
  · intro h
    refine D.nonneg ?_
    have h3 := hhi h
    have := L.ge_of_rep (x := x * (1 / 2147483648)) one_rep (by linarith)
    linarith

/-- C31: the naive saw and, for every increment up to half a turn (the Nyquist frequency), the band-limited
saw stay within `[-1, 1]` for every phase; where the band-limited saw is at least one increment away from the
discontinuity, it equals the naive one. -/
theorem C31_saw_bounded (L : Lawful 24 (-149) fl) (D : Lawful 53 (-1074) fd) (p dt : Phase.Rep) :
    |basic_saw fl fd p| ≤ 1
    ∧ (dt.toNat ≤ 2 ^ 31 → |saw fl fd p dt| ≤ 1)
    ∧ (dt.toNat ≤ p.toNat → p.toNat + dt.toNat ≤ 2 ^ 32 - 1 → saw fl fd p dt = basic_saw fl fd p) := by
  have hs := saw_naive L D p _ rfl
  refine ⟨?_, ?_, ?_⟩
  · unfold basic_saw
    exact L.abs_le_of_rep one_rep (abs_le.mpr ⟨hs.1, hs.2.1⟩)
  · intro hdt
    have hb0 := blep_first L (p := p) (dt := dt)
    have hb1 := blep_notFirst L (p := p) (dt := dt)
    have hb2 := blep_mid (fl := fl) (p := p) (dt := dt)
    have hsimp : saw fl fd p dt =
        fl (fd (fd (fl (ofU32 fl p * saw_x fl) - 1) - poly_blep fl p dt)) := rfl
    rw [hsimp]
    generalize fd (fl (ofU32 fl p * saw_x fl) - 1) = r at *
    generalize poly_blep fl p dt = b at *
    obtain ⟨h1, h2, h3, h4⟩ := hs
    have key : |r - b| ≤ 1 := by
      rw [abs_le]
      by_cases hp : p.toNat < dt.toNat
      · have := hb0 hp
        have := h3 (by omega)
        constructor <;> linarith
      · by_cases hm : p.toNat ≤ 2 ^ 32 - 1 - dt.toNat
        · rw [hb2 hp hm, sub_zero]; exact ⟨h1, h2⟩
        · have := hb1 hp
          have := h4 (by omega)
          constructor <;> linarith
    exact L.abs_le_of_rep one_rep (D.abs_le_of_rep one_rep64 key)
  · intro h1 h2
    have hb : poly_blep fl p dt = 0 := blep_mid (by omega) (by omega)
    have hsimp : saw fl fd p dt =
        fl (fd (fd (fl (ofU32 fl p * saw_x fl) - 1) - poly_blep fl p dt)) := rfl
    rw [hsimp, hb, sub_zero, D.idem]
    rfl

/-- C31: the naive saw is an increasing function of the phase, starting at `-1`. -/
theorem C31_saw_monotone (L : Lawful 24 (-149) fl) (D : Lawful 53 (-1074) fd) (p q : Phase.Rep)
    (h : p.toNat ≤ q.toNat) : basic_saw fl fd p ≤ basic_saw fl fd q ∧ basic_saw fl fd 0#32 = -1 := by
  constructor
  · unfold basic_saw
    apply L.mono; apply D.mono
    have : fl (ofU32 fl p * saw_x fl) ≤ fl (ofU32 fl q * saw_x fl) := by
      apply L.mono
      rw [saw_x_eq L]
      have := ofU32_mono L h
      gcongr
    linarith
  · unfold basic_saw ofU32
    have e : ((0#32 : BitVec 32).toNat : ℚ) = 0 := by simp
    rw [e, L.zero, zero_mul, L.zero, zero_sub, D.neg, D.fix 1 one_rep64, L.neg, fl_one L]

/-- Rounded addition of quantities whose exact sum stays in the unit interval. -/
theorem add_sym (L : Lawful 24 (-149) fl) {x : ℚ} (h : |x| ≤ 1) : |fl x| ≤ 1 := L.abs_le_of_rep one_rep h

/-- C32: the naive square wave is `±1`; the band-limited one stays within `[-1, 1]` for every increment below
half a turn and every phase other than the two just around the falling edge. -/
theorem C32_square_bounded_partial (L : Lawful 24 (-149) fl) (p dt : Phase.Rep) (hdt : dt.toNat < 2 ^ 31)
    (hp1 : p.toNat ≠ 2 ^ 31 - 1) (hp2 : p.toNat ≠ 2 ^ 31) :
    |basic_square p| = 1 ∧ |square fl p dt| ≤ 1 := by
  have hpl := p.isLt
  have hm : Phase.middle.toNat = 2 ^ 31 - 1 := by decide
  constructor
  · unfold basic_square; split <;> simp
  have hsum : (p + Phase.middle).toNat = (p.toNat + (2 ^ 31 - 1)) % 2 ^ 32 := by
    rw [BitVec.toNat_add, hm]
  have hsimp : square fl p dt = fl (fl ((if p.ult Phase.middle = true then 1 else -1) + poly_blep fl p dt)
    - poly_blep fl (p + Phase.middle) dt) := rfl
  rw [hsimp]
  by_cases h : p.ult Phase.middle = true
  · rw [if_pos h]
    rw [BitVec.ult, decide_eq_true_eq, hm] at h
    have hb1 := blep_notLast L (p := p) (dt := dt) (by omega)
    have hb2 := blep_notFirst L (p := p + Phase.middle) (dt := dt) (by omega)
    generalize poly_blep fl p dt = b1 at *
    generalize poly_blep fl (p + Phase.middle) dt = b2 at *
    have hu := fl_unit L (x := 1 + b1) (by linarith) (by linarith)
    generalize fl (1 + b1) = u at *
    exact add_sym L (abs_le.mpr ⟨by linarith, by linarith⟩)
  · rw [if_neg h]
    rw [BitVec.ult, decide_eq_true_eq, hm] at h
    have hb1 := blep_notFirst L (p := p) (dt := dt) (by omega)
    have hb2 := blep_notLast L (p := p + Phase.middle) (dt := dt) (by omega)
    generalize poly_blep fl p dt = b1 at *
    generalize poly_blep fl (p + Phase.middle) dt = b2 at *
    have hu : -1 ≤ fl (-1 + b1) ∧ fl (-1 + b1) ≤ 0 :=
      ⟨L.ge_of_rep (rep_neg one_rep) (by linarith), L.nonpos (by linarith)⟩
    generalize fl (-1 + b1) = u at *
    exact add_sym L (abs_le.mpr ⟨by linarith, by linarith⟩)

/-- At the very end of the turn the correction is `1`. -/
theorem blep_end (L : Lawful 24 (-149) fl) (dt : Phase.Rep) (h : 0 < dt.toNat) (h2 : dt.toNat < 2 ^ 32 - 1) :
    poly_blep fl end_ dt = 1 := by
  have he : end_.toNat = 2 ^ 32 - 1 := by decide
  have h1 : ¬ end_.ult dt = true := by rw [BitVec.ult, decide_eq_true_eq, he]; omega
  have h3 : (end_ - dt).ult end_ = true := by
    rw [BitVec.ult, decide_eq_true_eq, BitVec.toNat_sub, he]; omega
  unfold poly_blep
  rw [if_neg h1, if_pos h3]
  have e : ofU32 fl (end_ - end_) = 0 := by
    unfold ofU32
    rw [BitVec.sub_self]
    have : ((0#32 : BitVec 32).toNat : ℚ) = 0 := by simp
    rw [this, L.zero]
  simp only [e, neg_zero, zero_div, L.zero, mul_zero, add_zero, zero_add, fl_one L]

/-- C32 fails at phase `2^31`: just after the falling edge the band-limited square wave outputs `-2`, for
every non-zero increment below half a turn (the correction of the falling edge is applied with the sign of
the wrong side). -/
theorem C32_violation (L : Lawful 24 (-149) fl) (dt : Phase.Rep) (h : 0 < dt.toNat) (h2 : dt.toNat < 2 ^ 31) :
    square fl 0x80000000#32 dt = -2 := by
  have hsimp : ∀ p, square fl p dt = fl (fl ((if p.ult Phase.middle = true then 1 else -1) + poly_blep fl p dt)
    - poly_blep fl (p + Phase.middle) dt) := fun _ => rfl
  have e1 : (0x80000000#32 : BitVec 32) + Phase.middle = end_ := by decide
  have e2 : (0x80000000#32 : BitVec 32).ult Phase.middle = false := by decide
  have e3 : (0x80000000#32 : BitVec 32).toNat = 2147483648 := by decide
  have hb : poly_blep fl 0x80000000#32 dt = 0 := blep_mid (by rw [e3]; omega) (by rw [e3]; omega)
  rw [hsimp, e1, e2, hb, blep_end L dt h (by omega)]
  have e4 : fl (-2) = -2 := L.fix _ (rep_neg two_rep)
  simp only [Bool.false_eq_true, if_false, add_zero, fl_neg_one L]
  norm_num
  exact e4

/-- C33: the naive pulse wave is `±1`; the band-limited one stays within `[-1, 1]` for every width of at
least one increment from either end and every phase other than the one at the falling edge. -/
theorem C33_pulse_bounded_partial (L : Lawful 24 (-149) fl) (shift p dt : Phase.Rep)
    (h1 : dt.toNat ≤ shift.toNat) (h2 : shift.toNat + dt.toNat ≤ 2 ^ 32 - 1) (hne : p ≠ shift) :
    |basic_pulse shift p| = 1 ∧ |pulse fl shift p dt| ≤ 1 := by
  have hpl := p.isLt
  have hne' : p.toNat ≠ shift.toNat := fun e => hne (BitVec.eq_of_toNat_eq e)
  have he : end_.toNat = 2 ^ 32 - 1 := by decide
  constructor
  · unfold basic_pulse; split <;> simp
  have hsum : (p + (end_ - shift)).toNat = (p.toNat + (2 ^ 32 - 1 - shift.toNat)) % 2 ^ 32 := by
    rw [BitVec.toNat_add, BitVec.toNat_sub, he]; omega
  have hsimp : pulse fl shift p dt = fl (fl ((if p.ult shift = true then 1 else -1) + poly_blep fl p dt)
    - poly_blep fl (p + (end_ - shift)) dt) := rfl
  rw [hsimp]
  by_cases h : p.ult shift = true
  · rw [if_pos h]
    rw [BitVec.ult, decide_eq_true_eq] at h
    have hb1 := blep_notLast L (p := p) (dt := dt) (by omega)
    have hb2 := blep_notFirst L (p := p + (end_ - shift)) (dt := dt) (by omega)
    generalize poly_blep fl p dt = b1 at *
    generalize poly_blep fl (p + (end_ - shift)) dt = b2 at *
    have hu := fl_unit L (x := 1 + b1) (by linarith) (by linarith)
    generalize fl (1 + b1) = u at *
    exact add_sym L (abs_le.mpr ⟨by linarith, by linarith⟩)
  · rw [if_neg h]
    rw [BitVec.ult, decide_eq_true_eq] at h
    have hb1 := blep_notFirst L (p := p) (dt := dt) (by omega)
    have hb2 := blep_notLast L (p := p + (end_ - shift)) (dt := dt) (by omega)
    generalize poly_blep fl p dt = b1 at *
    generalize poly_blep fl (p + (end_ - shift)) dt = b2 at *
    have hu : -1 ≤ fl (-1 + b1) ∧ fl (-1 + b1) ≤ 0 :=
      ⟨L.ge_of_rep (rep_neg one_rep) (by linarith), L.nonpos (by linarith)⟩
    generalize fl (-1 + b1) = u at *
    exact add_sym L (abs_le.mpr ⟨by linarith, by linarith⟩)

/-- C33 fails exactly at the falling edge, for every width: the output is `-2`. -/
theorem C33_violation (L : Lawful 24 (-149) fl) (shift dt : Phase.Rep) (h : 0 < dt.toNat)
    (h1 : dt.toNat ≤ shift.toNat) (h2 : shift.toNat + dt.toNat ≤ 2 ^ 32 - 1) :
    pulse fl shift shift dt = -2 := by
  have hsimp : pulse fl shift shift dt = fl (fl ((if shift.ult shift = true then 1 else -1)
    + poly_blep fl shift dt) - poly_blep fl (shift + (end_ - shift)) dt) := rfl
  have e1 : shift + (end_ - shift) = end_ := by
    rw [BitVec.add_comm, BitVec.sub_add_cancel]
  have e2 : shift.ult shift = false := by simp [BitVec.ult]
  have hb : poly_blep fl shift dt = 0 := blep_mid (by omega) (by omega)
  rw [hsimp, e1, e2, hb, blep_end L dt h (by omega)]
  have e4 : fl (-2) = -2 := L.fix _ (rep_neg two_rep)
  simp only [Bool.false_eq_true, if_false, add_zero, fl_neg_one L]
  norm_num
  exact e4

/-- The hypotheses of the square and pulse theorems hold for a 50% pulse at 1/100 of the sampling rate. -/
example : (42949672#32).toNat ≤ (0x80000000#32).toNat ∧ (0x80000000#32).toNat + (42949672#32).toNat ≤ 2 ^ 32 - 1
    ∧ (0#32) ≠ (0x80000000#32) := by decide

/-- **C33** The plain pulse is high exactly for the phases below the width, so for exactly `width` of the `2^32` phases of a
turn. -/
theorem C33_duty_cycle (shift : Rep) :
    (∀ p : Rep, basic_pulse shift p = if p.toNat < shift.toNat then 1 else -1) ∧
    ((Finset.range (2 ^ 32)).filter (fun n => basic_pulse shift (BitVec.ofNat 32 n) = 1)).card = shift.toNat := by
  have h1 : ∀ p : Rep, basic_pulse shift p = if p.toNat < shift.toNat then 1 else -1 := by
    intro p
    unfold basic_pulse
    simp only [BitVec.ult, decide_eq_true_eq]
  refine ⟨h1, ?_⟩
  have hs := shift.isLt
  have : (Finset.range (2 ^ 32)).filter (fun n => basic_pulse shift (BitVec.ofNat 32 n) = 1) = Finset.range shift.toNat := by
    ext n
    rw [Finset.mem_filter, Finset.mem_range, Finset.mem_range, h1, BitVec.toNat_ofNat]
    constructor
    · rintro ⟨h2, h3⟩
      rw [Nat.mod_eq_of_lt h2] at h3
      by_contra hc
      rw [if_neg hc] at h3
      norm_num at h3
    · intro h2
      refine ⟨by omega, ?_⟩
      rw [Nat.mod_eq_of_lt (by omega), if_pos h2]
  rw [this, Finset.card_range]

/-- **C32** The plain square is high exactly for the first `2^31 - 1` of the `2^32` phases of a turn (one less than half). -/
theorem C32_half (p : Rep) : basic_square p = if p.toNat < 2 ^ 31 - 1 then 1 else -1 := by
  unfold basic_square
  have h : Phase.middle.toNat = 2 ^ 31 - 1 := by decide
  simp only [BitVec.ult, decide_eq_true_eq]
  rw [h]

end Verif
