import Verif.Props.DecibelAccuracy
/-!
# Decibel to amplitude, and the round trips (C61)
-/
namespace Verif
open Rounding Decibel DbTable

variable {fl fd : ℚ → ℚ}

namespace Decibel
open Interp Sin

section
variable (L : Lawful 24 (-149) fl) (D : Lawful 53 (-1074) fd)
include L

/-- Ten times a float below 120 never rounds to 1200. -/
theorem times_ten {d : ℚ} (hd : Rep 24 (-149) d) (h : d < 120) : fl (d * 10) < 1200 := by
  rcases lt_or_ge d 64 with h6 | h6
  · have := L.le_of_rep (x := d * 10) (r := 640) ⟨640, 0, by norm_num, by norm_num, by norm_num⟩ (by linarith)
    linarith
  · obtain ⟨z, hz⟩ := rep_grid (by norm_num) hd (j := 6) (by norm_num; exact h6)
    have e : (2 : ℚ) ^ ((6 : ℤ) + 1 - ((24 : ℕ) : ℤ)) = 1 / 2 ^ 17 := by
      rw [show ((6 : ℤ) + 1 - ((24 : ℕ) : ℤ) : ℤ) = -((17 : ℕ) : ℤ) by norm_num, zpow_neg, zpow_natCast, one_div]
    rw [e] at hz
    have z1 : (z : ℚ) < 15728640 := by rw [hz] at h; norm_num at h; linarith
    have z2 : z < 15728640 := by exact_mod_cast z1
    have z3 : (z : ℚ) ≤ 15728639 := by exact_mod_cast (by omega : z ≤ 15728639)
    have hx : d * 10 ≤ 1200 - 10 / 2 ^ 17 := by rw [hz]; norm_num; linarith
    have m := L.mono _ _ hx
    have n := L.nearest (1200 - 10 / 2 ^ 17) (1200 - 1 / 2 ^ 13) ⟨9830399, -13, by norm_num, by norm_num, by norm_num⟩
    rw [abs_le] at n
    have : |(1200 - 1 / 2 ^ 13 : ℚ) - (1200 - 10 / 2 ^ 17)| = 6 / 2 ^ 17 := by
      rw [abs_of_nonpos (by norm_num)]; norm_num
    rw [this] at n
    have n2 := n.2
    generalize fl (1200 - 10 / 2 ^ 17) = w at *
    norm_num at n2
    linarith

include D

/-- The cell used by `db2a` for `0 ≤ d < 120`. -/
theorem inv_cell {d : ℚ} (hd : Rep 24 (-149) d) (h0 : 0 ≤ d) (h : d < 120) :
    ∃ (k : ℕ) (μ : ℚ), k < 1200 ∧ 0 ≤ μ ∧ μ < 1 ∧ fl (d * 10) = k + μ ∧
      db2aUp fl fd d = .ok (linear_interpolate fl (val fl fd invTable k) (val fl fd invTable (k + 1)) μ) := by
  have b1 := times_ten L hd h
  have b0 : 0 ≤ fl (d * 10) := L.nonneg (by linarith)
  obtain ⟨f1, f2, f3, f4⟩ := frac L (L.rep (d * 10)) b0 (by linarith)
  set b := fl (d * 10) with hb
  have hk : ⌊b⌋₊ < 1200 := by rw [Nat.floor_lt b0]; exact_mod_cast b1
  refine ⟨⌊b⌋₊, b - ⌊b⌋₊, hk, f3, f4, by ring, ?_⟩
  unfold db2aUp
  rw [if_pos h]
  dsimp only
  rw [← hb, f1, bind_ok, entriesInv, read_val _ _ (by rw [lengths.2.2.2]; omega), bind_ok,
    read_val _ _ (by rw [lengths.2.2.2]; omega), bind_ok, f2]
  rfl

omit L D in
theorem inv_sat {d : ℚ} (h : 120 ≤ d) : db2aUp fl fd d = .ok 1000000 := by
  unfold db2aUp; rw [if_neg (by linarith)]; rfl

theorem inv_ends : val fl fd invTable 0 = 1 ∧ val fl fd invTable 1200 = 1000000 := by
  have r1 : Rep 24 (-149) (1 : ℚ) := ⟨1, 0, by norm_num, by norm_num, by norm_num⟩
  have r2 : Rep 53 (-1074) (1 : ℚ) := ⟨1, 0, by norm_num, by norm_num, by norm_num⟩
  have r3 : Rep 24 (-149) (1000000 : ℚ) := ⟨1000000, 0, by norm_num, by norm_num, by norm_num⟩
  have r4 : Rep 53 (-1074) (1000000 : ℚ) := ⟨1000000, 0, by norm_num, by norm_num, by norm_num⟩
  constructor
  · unfold val; rw [firstInv]
    have : (((some (10 ^ 15) : Option ℤ).getD 0 : ℤ) : ℚ) / 10 ^ 15 = 1 := by norm_num
    rw [this, D.fix _ r2, L.fix _ r1]
  · unfold val; rw [seams.2.2.2]
    have : (((some (10 ^ 21) : Option ℤ).getD 0 : ℤ) : ℚ) / 10 ^ 15 = 1000000 := by norm_num
    rw [this, D.fix _ r4, L.fix _ r3]

theorem inv_range {d : ℚ} (hd : Rep 24 (-149) d) (h0 : 0 ≤ d) :
    ∃ v, db2aUp fl fd d = .ok v ∧ 1 ≤ v ∧ v ≤ 1000000 := by
  rcases lt_or_ge d 120 with h | h
  · obtain ⟨k, μ, hk, m0, m1, -, e⟩ := inv_cell L D hd h0 h
    obtain ⟨i1, i2⟩ := inv_ends L D
    have c := cell L D chains.2.2.2 (k := k) (by rw [lengths.2.2.2]; omega)
    refine ⟨_, e, ?_, ?_⟩
    · rw [← i1]
      exact (val_mono L D chains.2.2.2 (Nat.zero_le _) (by rw [lengths.2.2.2]; omega)).trans (Interp.ge L c m0)
    · rw [← i2]
      exact (Interp.le L c m1.le).trans (val_mono L D chains.2.2.2 (by omega) (by rw [lengths.2.2.2]; omega))
  · exact ⟨_, inv_sat h, by norm_num, le_rfl⟩

theorem inv_mono {d e v w : ℚ} (hd : Rep 24 (-149) d) (he : Rep 24 (-149) e) (h0 : 0 ≤ d) (hde : d ≤ e)
    (ev : db2aUp fl fd d = .ok v) (ew : db2aUp fl fd e = .ok w) : v ≤ w := by
  rcases lt_or_ge e 120 with h | h
  · obtain ⟨j, μ, hj, m0, m1, e1, e2⟩ := inv_cell L D hd h0 (by linarith)
    obtain ⟨k, ν, hk, n0, n1, e3, e4⟩ := inv_cell L D he (by linarith) h
    rw [ev] at e2; injection e2 with e2
    rw [ew] at e4; injection e4 with e4
    rw [e2, e4]
    refine interp_mono L D chains.2.2.2 (by rw [lengths.2.2.2]; omega) (by rw [lengths.2.2.2]; omega) m0 m1 n0 n1 ?_
    rw [← e1, ← e3]
    exact L.mono _ _ (by linarith)
  · rw [inv_sat h] at ew; injection ew with ew
    obtain ⟨v', ev', -, h2⟩ := inv_range L D hd h0
    rw [ev] at ev'; injection ev' with ev'; subst ev'
    linarith

theorem db2a_cases {d v : ℚ} (hd : Rep 24 (-149) d) (e : db2a fl fd d = .ok v) :
    (0 ≤ d ∧ db2aUp fl fd d = .ok v) ∨
    (d < 0 ∧ ∃ w, db2aUp fl fd (-d) = .ok w ∧ 1 ≤ w ∧ w ≤ 1000000 ∧ v = fl (1 / w)) := by
  unfold db2a at e
  by_cases h : d < 0
  · rw [if_pos h] at e
    obtain ⟨w, ew, w1, w2⟩ := inv_range L D (rep_neg hd) (by linarith : 0 ≤ -d)
    rw [ew, bind_ok] at e
    injection e with e
    exact Or.inr ⟨h, w, ew, w1, w2, e.symm⟩
  · rw [if_neg h] at e
    exact Or.inl ⟨by linarith, e⟩

end

/-- `10^(x/20)` in terms of `R`. -/
theorem amp_eq (x : ℝ) : (10 : ℝ) ^ (x / 20) = R ^ (x * 10) := by
  unfold R
  rw [← Real.rpow_mul (by norm_num)]
  congr 1
  ring

/-- A small change of the position changes the amplitude by a small factor. -/
theorem R_shift (x y ε : ℝ) (h : |x - y| ≤ ε) (hε : ε ≤ 1 / 1000) : |R ^ x - R ^ y| ≤ R ^ y * (0.0116 * ε) := by
  have l0 : 0 ≤ Real.log R := Real.log_nonneg R_bounds.1
  have l1 : Real.log R ≤ 0.01152 := by
    rw [log_R]; have := log_ten_bounds.2; norm_num at this ⊢; linarith
  have e : R ^ x - R ^ y = R ^ y * (Real.exp (Real.log R * (x - y)) - 1) := by
    rw [← Real.rpow_def_of_pos R_pos, mul_sub, mul_one, ← Real.rpow_add R_pos]
    congr 2
    ring
  have p : 0 < R ^ y := Real.rpow_pos_of_pos R_pos y
  rw [e, abs_mul, abs_of_pos p]
  apply mul_le_mul_of_nonneg_left _ p.le
  have ε0 : 0 ≤ ε := (abs_nonneg _).trans h
  have a : |Real.log R * (x - y)| ≤ 0.01152 * ε := by
    rw [abs_mul, abs_of_nonneg l0]; exact mul_le_mul l1 h (abs_nonneg _) (by norm_num)
  have b : |Real.log R * (x - y)| ≤ 1 := a.trans (by norm_num; linarith)
  have c := Real.abs_exp_sub_one_sub_id_le b
  generalize Real.log R * (x - y) = z at *
  have z2 : z ^ 2 ≤ (0.01152 * ε) ^ 2 := by rw [← sq_abs z]; exact pow_le_pow_left₀ (abs_nonneg _) a 2
  have t : |Real.exp z - 1| ≤ |Real.exp z - 1 - z| + |z| := by
    have := abs_add_le (Real.exp z - 1 - z) z
    simpa using this
  have : ε ^ 2 ≤ 1 / 1000 * ε := by nlinarith
  norm_num at *
  nlinarith

section
variable (L : Lawful 24 (-149) fl) (D : Lawful 53 (-1074) fd)
include L D

/-- Accuracy for `0 ≤ d ≤ 120`. -/
theorem inv_acc {d v : ℚ} (hd : Rep 24 (-149) d) (h0 : 0 ≤ d) (h : d ≤ 120) (e : db2aUp fl fd d = .ok v) :
    |(v : ℝ) - (10 : ℝ) ^ ((d : ℝ) / 20)| ≤ 2 / 10 ^ 5 * (10 : ℝ) ^ ((d : ℝ) / 20) := by
  rcases eq_or_lt_of_le h with rfl | h
  · rw [inv_sat le_rfl] at e; injection e with e
    rw [← e]
    have : (10 : ℝ) ^ (((120 : ℚ) : ℝ) / 20) = 1000000 := by
      rw [show (((120 : ℚ) : ℝ) / 20) = ((6 : ℕ) : ℝ) by norm_num, Real.rpow_natCast]; norm_num
    rw [this]; norm_num
  obtain ⟨k, μ, hk, m0, m1, eq, e'⟩ := inv_cell L D hd h0 h
  rw [e] at e'; injection e' with e'
  rw [amp_eq]
  -- the literals
  have n1 := nearInv k (by omega)
  have n2 := nearInv (k + 1) (by omega)
  have k0 : (0 : ℝ) ≤ k := Nat.cast_nonneg _
  have k1 : (k : ℝ) ≤ 1199 := by exact_mod_cast (by omega : k ≤ 1199)
  obtain ⟨R1, R2⟩ := R_bounds
  have P1 : 1 ≤ R ^ k := one_le_pow₀ R1
  rw [pow_succ] at n2
  push_cast at n2
  have P0 : 0 < R ^ k := by linarith
  have n1' : |(litInv k : ℝ) - R ^ k| ≤ 2 / 10 ^ 11 * R ^ k := by
    refine n1.trans (mul_le_mul_of_nonneg_right ?_ P0.le)
    rw [div_le_div_iff₀ (by norm_num) (by norm_num)]; norm_num; linarith
  have n2' : |(litInv (k + 1) : ℝ) - R ^ k * R| ≤ 2 / 10 ^ 11 * (R ^ k * R) := by
    refine n2.trans (mul_le_mul_of_nonneg_right ?_ (by positivity))
    rw [div_le_div_iff₀ (by norm_num) (by norm_num)]; norm_num; linarith
  have cl := interp_close L D chains.2.2.2 (k := k) (by rw [lengths.2.2.2]; omega) m0 m1.le _ le_rfl
  rw [← e'] at cl
  have cl' : |(v : ℝ) - ((litInv k : ℝ) + (μ : ℝ) * ((litInv (k + 1) : ℝ) - litInv k))| ≤ 4 * (litInv (k + 1) : ℝ) / 2 ^ 24 := by
    have : ((|v - (litInv k + μ * (litInv (k + 1) - litInv k))| : ℚ) : ℝ) ≤ ((4 * litInv (k + 1) / 2 ^ 24 : ℚ) : ℝ) :=
      Rat.cast_le.mpr cl
    push_cast at this
    exact this
  have m0' : (0 : ℝ) ≤ μ := by exact_mod_cast m0
  have m1' : (μ : ℝ) ≤ 1 := by exact_mod_cast m1.le
  -- the position
  obtain ⟨c1, c2⟩ := chord_exp μ m0' m1'
  have pos : R ^ ((k : ℝ) + μ) = R ^ k * R ^ (μ : ℝ) := by
    rw [Real.rpow_add R_pos, Real.rpow_natCast]
  have sh := R_shift ((k : ℝ) + μ) ((d : ℝ) * 10) (8 / 10 ^ 5) (by
    have er : |fl (d * 10) - d * 10| ≤ 8 / 10 ^ 5 := by
      refine (L.err _).trans (max_le ?_ ?_)
      · rw [abs_of_nonneg (by linarith), div_le_iff₀ (by norm_num)]; norm_num; linarith
      · rw [show (-149 : ℤ) = -((149 : ℕ) : ℤ) by norm_num, zpow_neg, zpow_natCast]; norm_num
    rw [eq] at er
    have : ((|(k : ℚ) + μ - d * 10| : ℚ) : ℝ) ≤ ((8 / 10 ^ 5 : ℚ) : ℝ) := Rat.cast_le.mpr er
    push_cast at this
    exact this) (by norm_num)
  rw [pos] at sh
  have S0 : 0 < R ^ ((d : ℝ) * 10) := Real.rpow_pos_of_pos R_pos _
  have Q0 : 0 < R ^ (μ : ℝ) := Real.rpow_pos_of_pos R_pos _
  have Q1 : 1 ≤ R ^ (μ : ℝ) := Real.one_le_rpow R1 m0'
  generalize R ^ ((d : ℝ) * 10) = S at *
  generalize R ^ (μ : ℝ) = Q at *
  generalize R ^ k = P at *
  generalize (litInv k : ℝ) = x at *
  generalize (litInv (k + 1) : ℝ) = y at *
  generalize (v : ℝ) = w at *
  generalize (μ : ℝ) = m at *
  -- interpolation of the literals against interpolation of the powers
  have i1 : |(x + m * (y - x)) - P * (1 + m * (R - 1))| ≤ 3 / 10 ^ 11 * P := by
    have e : (x + m * (y - x)) - P * (1 + m * (R - 1)) = (1 - m) * (x - P) + m * (y - P * R) := by ring
    rw [e]
    refine (abs_add_le _ _).trans ?_
    rw [abs_mul, abs_mul, abs_of_nonneg (by linarith : 0 ≤ 1 - m), abs_of_nonneg m0']
    have : 2 / 10 ^ 11 * (P * R) ≤ 3 / 10 ^ 11 * P := by nlinarith
    have a1 : (1 - m) * |x - P| ≤ (1 - m) * (3 / 10 ^ 11 * P) := mul_le_mul_of_nonneg_left (by linarith) (by linarith)
    have a2 : m * |y - P * R| ≤ m * (3 / 10 ^ 11 * P) := mul_le_mul_of_nonneg_left (by linarith) m0'
    linarith
  have yb : y ≤ 1.013 * P := by
    have := (abs_le.mp n2').2
    have : P * R ≤ P * 1.012 := mul_le_mul_of_nonneg_left R2 P0.le
    norm_num at *
    linarith
  have i2 : |P * (1 + m * (R - 1)) - P * Q| ≤ 17 / 10 ^ 6 * (P * Q) := by
    have e : P * (1 + m * (R - 1)) - P * Q = P * (1 + m * (R - 1) - Q) := by ring
    rw [e, abs_mul, abs_of_pos P0, abs_of_nonneg (by linarith)]
    have : 1 + m * (R - 1) - Q ≤ Q * (17 / 10 ^ 6) := by linarith
    have := mul_le_mul_of_nonneg_left this P0.le
    linarith
  have PQ : P ≤ P * Q := by nlinarith
  generalize P * Q = Z at *
  rw [abs_le] at *
  norm_num at *
  constructor <;> linarith

end
end Decibel

section
variable (L : Lawful 24 (-149) fl) (D : Lawful 53 (-1074) fd)
include L D

/-- **C61.** Decibel to amplitude never reads outside the table, for any float; the result is positive, at most
10^6, at least one for non-negative levels and at most one for negative ones. -/
theorem C61_db2a_total (d : ℚ) (hd : Rep 24 (-149) d) :
    ∃ v, db2a fl fd d = .ok v ∧ 0 < v ∧ v ≤ 1000000 ∧ (0 ≤ d → 1 ≤ v) ∧ (d < 0 → v ≤ 1) := by
  rcases lt_or_ge d 0 with h | h
  · obtain ⟨w, ew, w1, w2⟩ := inv_range L D (rep_neg hd) (by linarith : 0 ≤ -d)
    have v1 : fl (1 / w) ≤ 1 := L.le_of_rep ⟨1, 0, by norm_num, by norm_num, by norm_num⟩ (by
      rw [div_le_iff₀ (by linarith)]; linarith)
    have v0 : 1 / 2 ^ 20 ≤ fl (1 / w) := L.ge_of_rep ⟨1, -20, by norm_num, by norm_num, by norm_num⟩ (by
      apply one_div_le_one_div_of_le (by linarith); norm_num; linarith)
    refine ⟨fl (1 / w), ?_, lt_of_lt_of_le (by norm_num) v0, by linarith, fun h' => by linarith, fun _ => v1⟩
    unfold db2a; rw [if_pos h, ew]; rfl
  · obtain ⟨w, ew, w1, w2⟩ := inv_range L D hd h
    refine ⟨w, ?_, by linarith, w2, fun _ => w1, fun h' => by linarith⟩
    unfold db2a; rw [if_neg (by linarith)]; exact ew

/-- **C61.** Decibel to amplitude is monotone. -/
theorem C61_db2a_mono (d e v w : ℚ) (hd : Rep 24 (-149) d) (he : Rep 24 (-149) e) (hde : d ≤ e)
    (ev : db2a fl fd d = .ok v) (ew : db2a fl fd e = .ok w) : v ≤ w := by
  obtain ⟨v', ev', v1, v2, v3, v4⟩ := C61_db2a_total L D d hd
  obtain ⟨w', ew', w1, w2, w3, w4⟩ := C61_db2a_total L D e he
  rw [ev] at ev'; injection ev' with ev'; subst ev'
  rw [ew] at ew'; injection ew' with ew'; subst ew'
  rcases db2a_cases L D hd ev with ⟨h, i⟩ | ⟨h, x, i, x1, x2, hx⟩
  · rcases db2a_cases L D he ew with ⟨h', i'⟩ | ⟨h', _⟩
    · exact inv_mono L D hd he h hde i i'
    · linarith
  · rcases db2a_cases L D he ew with ⟨h', i'⟩ | ⟨h', y, i', y1, y2, hy⟩
    · linarith [v4 h, w3 h']
    · have := inv_mono L D (rep_neg he) (rep_neg hd) (by linarith) (by linarith) i' i
      rw [hx, hy]
      exact L.mono _ _ (one_div_le_one_div_of_le (by linarith) this)

omit L D in
/-- **C61.** Saturation: amplitude 10^6 from 120 dB on, the rounded 10^-6 up to -120 dB. -/
theorem C61_db2a_saturates (d : ℚ) :
    (120 ≤ d → db2a fl fd d = .ok 1000000) ∧ (d ≤ -120 → db2a fl fd d = .ok (fl (1 / 1000000))) := by
  constructor
  · intro h; unfold db2a; rw [if_neg (by linarith)]; exact inv_sat h
  · intro h; unfold db2a; rw [if_pos (by linarith), inv_sat (by linarith)]; rfl

/-- **C61.** Accuracy: decibel to amplitude differs from `10^(d/20)` by at most 25 parts in a million, for every float
from -120 to 120. -/
theorem C61_db2a_accuracy (d v : ℚ) (hd : Rep 24 (-149) d) (h1 : -120 ≤ d) (h2 : d ≤ 120)
    (e : db2a fl fd d = .ok v) :
    |(v : ℝ) - (10 : ℝ) ^ ((d : ℝ) / 20)| ≤ 25 / 10 ^ 6 * (10 : ℝ) ^ ((d : ℝ) / 20) := by
  rcases db2a_cases L D hd e with ⟨h, i⟩ | ⟨h, w, i, w1, w2, hw⟩
  · refine (inv_acc L D hd h h2 i).trans (mul_le_mul_of_nonneg_right (by norm_num) ?_)
    exact (Real.rpow_pos_of_pos (by norm_num) _).le
  · have a := inv_acc L D (rep_neg hd) (by linarith) (by linarith) i
    have er : |fl (1 / w) - 1 / w| ≤ 1 / w / 2 ^ 24 := by
      refine (L.err _).trans (max_le (by rw [abs_of_pos (by positivity)]) ?_)
      have t : (2 : ℚ) ^ (-149 : ℤ) / 2 ≤ 1 / 1000000 / 2 ^ 24 := by
        rw [show (-149 : ℤ) = -((149 : ℕ) : ℤ) by norm_num, zpow_neg, zpow_natCast]; norm_num
      refine t.trans ?_
      apply div_le_div_of_nonneg_right _ (by norm_num)
      exact one_div_le_one_div_of_le (by linarith) w2
    rw [← hw] at er
    have er' : |(v : ℝ) - 1 / w| ≤ 1 / w / 2 ^ 24 := by
      have : ((|v - 1 / w| : ℚ) : ℝ) ≤ ((1 / w / 2 ^ 24 : ℚ) : ℝ) := Rat.cast_le.mpr er
      push_cast at this
      exact this
    have ei : (10 : ℝ) ^ ((d : ℝ) / 20) = ((10 : ℝ) ^ (((-d : ℚ) : ℝ) / 20))⁻¹ := by
      rw [← Real.rpow_neg (by norm_num)]; congr 1; push_cast; ring
    rw [ei]
    have B0 : 0 < (10 : ℝ) ^ (((-d : ℚ) : ℝ) / 20) := Real.rpow_pos_of_pos (by norm_num) _
    generalize (10 : ℝ) ^ (((-d : ℚ) : ℝ) / 20) = B at *
    have w0 : (0 : ℝ) < w := by exact_mod_cast lt_of_lt_of_le one_pos w1
    -- relative to 1/B
    have r1 : |(1 : ℝ) / w * B - 1| ≤ 201 / 10 ^ 7 := by
      have e : (1 : ℝ) / w * B - 1 = (B - w) / w := by field_simp
      rw [e, abs_div, abs_of_pos w0, div_le_iff₀ w0, abs_sub_comm]
      refine a.trans ?_
      have := (abs_le.mp a).1
      norm_num at this ⊢
      linarith
    have hb : (1 : ℝ) / w * B ≤ 1.001 := by
      have := (abs_le.mp r1).2; norm_num at this ⊢; linarith
    have r2 : |(v : ℝ) * B - 1| ≤ 25 / 10 ^ 6 := by
      have e : (v : ℝ) * B - 1 = ((v : ℝ) - 1 / w) * B + ((1 : ℝ) / w * B - 1) := by ring
      rw [e]
      refine (abs_add_le _ _).trans ?_
      rw [abs_mul, abs_of_pos B0]
      have : |(v : ℝ) - 1 / w| * B ≤ 1 / w / 2 ^ 24 * B := mul_le_mul_of_nonneg_right er' B0.le
      have e2 : (1 : ℝ) / w / 2 ^ 24 * B = (1 / w * B) / 2 ^ 24 := by ring
      rw [e2] at this
      norm_num at *
      linarith
    have e : (v : ℝ) - B⁻¹ = ((v : ℝ) * B - 1) * B⁻¹ := by field_simp
    rw [e, abs_mul, abs_of_pos (inv_pos.mpr B0)]
    exact mul_le_mul_of_nonneg_right r2 (inv_pos.mpr B0).le

omit L D in
/-- `10^(20 log10 x / 20) = x`, with a small error in the level. -/
theorem Decibel.amp_of_level {x y ε : ℝ} (hx : 0 < x) (h : |y - 20 * Real.logb 10 x| ≤ ε) :
    |(10 : ℝ) ^ (y / 20) - x| ≤ x * (Real.exp (0.1152 * ε) - 1) := by
  have e : (10 : ℝ) ^ (y / 20) = x * Real.exp (Real.log 10 / 20 * (y - 20 * Real.logb 10 x)) := by
    have p : 0 < Real.log 10 := by linarith [log_ten_bounds.1]
    have e1 : Real.log 10 / 20 * (y - 20 * Real.logb 10 x) = Real.log 10 * (y / 20) - Real.log x := by
      unfold Real.logb; field_simp
    rw [e1, Real.exp_sub, Real.exp_log hx, Real.rpow_def_of_pos (by norm_num)]
    field_simp
  have ε0 : 0 ≤ ε := (abs_nonneg _).trans h
  rw [e]
  have c : Real.log 10 / 20 ≤ 0.1152 := by have := log_ten_bounds.2; norm_num at this ⊢; linarith
  have c0 : 0 ≤ Real.log 10 / 20 := by have := log_ten_bounds.1; norm_num at this ⊢; linarith
  have b : |Real.log 10 / 20 * (y - 20 * Real.logb 10 x)| ≤ 0.1152 * ε := by
    rw [abs_mul, abs_of_nonneg c0]; exact mul_le_mul c h (abs_nonneg _) (by norm_num)
  generalize Real.log 10 / 20 * (y - 20 * Real.logb 10 x) = z at *
  have e2 : x * Real.exp z - x = x * (Real.exp z - 1) := by ring
  rw [e2, abs_mul, abs_of_pos hx]
  apply mul_le_mul_of_nonneg_left _ hx.le
  generalize 0.1152 * ε = t at *
  rw [abs_le] at b ⊢
  have h1 : Real.exp z ≤ Real.exp t := Real.exp_le_exp.mpr b.2
  have h2 : Real.exp (-t) ≤ Real.exp z := Real.exp_le_exp.mpr b.1
  have h3 : 2 ≤ Real.exp t + Real.exp (-t) := by
    have := Real.add_one_le_exp t
    have := Real.add_one_le_exp (-t)
    linarith
  constructor <;> linarith

/-- **C61.** Round trip: converting an amplitude to decibel and back gives the amplitude up to 40 parts in a million
between 1/8 and 8, 0.3 per cent between 1/1024 and 1024, and 7 per cent between 1/900000 and 900000. -/
theorem C61_amplitude_round_trip (a v b : ℚ) (ha : Rep 24 (-149) a) (e1 : a2db fl fd a = .ok v)
    (e2 : db2a fl fd v = .ok b) :
    (1 / 8 ≤ a → a ≤ 8 → |(b : ℝ) - a| ≤ 40 / 10 ^ 6 * a) ∧
    (1 / 1024 ≤ a → a ≤ 1024 → |(b : ℝ) - a| ≤ 3 / 1000 * a) ∧
    (1 / 900000 ≤ a → a ≤ 900000 → |(b : ℝ) - a| ≤ 7 / 100 * a) := by
  -- the level is a float
  have rv : 0 ≤ a → Rep 24 (-149) v := by
    intro a0
    have up : ∀ {x w : ℚ}, Rep 24 (-149) x → 1 ≤ x → a2dbUp fl fd x = .ok w → Rep 24 (-149) w := by
      intro x w hx h1 ew
      rcases lt_or_ge x 8 with h | h
      · obtain ⟨k, μ, -, -, -, -, e'⟩ := up0 L D hx h1 h
        rw [ew] at e'; injection e' with e'; rw [e']; exact L.rep _
      rcases lt_or_ge x 1024 with h' | h'
      · obtain ⟨k, μ, -, -, -, -, -, e'⟩ := up1 L D hx h h'
        rw [ew] at e'; injection e' with e'; rw [e']; exact L.rep _
      rcases lt_or_ge x 1048576 with h'' | h''
      · obtain ⟨k, μ, -, -, -, -, e'⟩ := up2 L D hx h' h''
        rw [ew] at e'; injection e' with e'; rw [e']; exact L.rep _
      · rw [up3 h''] at ew; injection ew with ew; rw [← ew]
        exact ⟨121, 0, by norm_num, by norm_num, by norm_num⟩
    rcases a2db_cases L D a0 e1 with ⟨_, h⟩ | ⟨p, q, h⟩ | ⟨p, h⟩
    · rw [h]; exact ⟨-121, 0, by norm_num, by norm_num, by norm_num⟩
    · have := rep_neg (up (L.rep _) (inv_ge_one L p q) h)
      rwa [neg_neg] at this
    · exact up ha p h
  have key : ∀ ε E : ℝ, 1 / 900000 ≤ a → a ≤ 900000 → |(v : ℝ) - 20 * Real.logb 10 a| ≤ ε →
      Real.exp (0.1152 * ε) - 1 ≤ E → E ≤ 1 / 10 → |(b : ℝ) - a| ≤ (E + 28 / 10 ^ 6) * a := by
    intro ε E al ah hv hE E1
    have a0 : 0 < a := lt_of_lt_of_le (by norm_num) al
    have av : (0 : ℝ) < a := by exact_mod_cast a0
    have m := (Decibel.amp_of_level av hv).trans (mul_le_mul_of_nonneg_left hE av.le)
    have vb : -120 ≤ (v : ℝ) ∧ (v : ℝ) ≤ 120 := by
      have acc := (C61_a2db_accuracy L D a v ha e1).2.2 (lt_of_lt_of_le (by norm_num) al) (lt_of_le_of_lt ah (by norm_num))
      have l1 : |Real.logb 10 a| ≤ 5.97 := by
        have lt : |Real.log a| ≤ 13.7102 := by
          have e20 : Real.log 900000 = 5 * Real.log 2 + 2 * Real.log 3 + 5 * Real.log 5 := by
            rw [show (900000 : ℝ) = 2 ^ 5 * 3 ^ 2 * 5 ^ 5 by norm_num, Real.log_mul (by norm_num) (by norm_num),
              Real.log_mul (by norm_num) (by norm_num), Real.log_pow, Real.log_pow, Real.log_pow]; norm_num
          have := Real.log_two_lt_d9
          have := Real.log_three_lt_d9
          have := Real.log_five_lt_d9
          have g1 : Real.log a ≤ Real.log 900000 := Real.log_le_log av (by exact_mod_cast ah)
          have g2 : Real.log (1 / 900000) ≤ Real.log a := Real.log_le_log (by norm_num) (by
            have : ((1 / 900000 : ℚ) : ℝ) ≤ a := Rat.cast_le.mpr al
            push_cast at this
            exact this)
          rw [one_div, Real.log_inv] at g2
          rw [abs_le]
          norm_num at *
          constructor <;> linarith
        have p := log_ten_bounds.1
        unfold Real.logb
        rw [abs_div, abs_of_pos (by linarith : 0 < Real.log 10), div_le_iff₀ (by linarith)]
        norm_num at *
        linarith
      rw [abs_le] at acc l1
      norm_num at *
      constructor <;> linarith
    have ac := C61_db2a_accuracy L D v b (rv a0.le) (by exact_mod_cast vb.1) (by exact_mod_cast vb.2) e2
    generalize (10 : ℝ) ^ ((v : ℝ) / 20) = B at *
    have hB : B ≤ 1.1 * a := by
      have := (abs_le.mp m).2
      have : (a : ℝ) * E ≤ a * (1 / 10) := mul_le_mul_of_nonneg_left E1 av.le
      norm_num at *
      linarith
    have t := abs_sub_le (b : ℝ) B a
    norm_num at ac hB ⊢
    linarith
  have ex : ∀ ε : ℝ, 0 ≤ ε → ε ≤ 1 → Real.exp (0.1152 * ε) - 1 ≤ 0.1152 * ε + (0.1152 * ε) ^ 2 := by
    intro ε h0 h1
    have h := Real.abs_exp_sub_one_sub_id_le (x := 0.1152 * ε) (by
      rw [abs_of_nonneg (by positivity)]; norm_num; linarith)
    have := (abs_le.mp h).2
    linarith
  have acc := C61_a2db_accuracy L D a v ha e1
  refine ⟨fun al ah => ?_, fun al ah => ?_, fun al ah => ?_⟩
  · have a0 : 0 < a := lt_of_lt_of_le (by norm_num) al
    have av : (0 : ℝ) < a := by exact_mod_cast a0
    have := key _ _ (le_trans (by norm_num) al) (ah.trans (by norm_num)) (acc.1 al ah)
      (ex _ (by norm_num) (by norm_num)) (by norm_num)
    refine this.trans (mul_le_mul_of_nonneg_right (by norm_num) av.le)
  · have a0 : 0 < a := lt_of_lt_of_le (by norm_num) al
    have av : (0 : ℝ) < a := by exact_mod_cast a0
    have := key _ _ (le_trans (by norm_num) al) (ah.trans (by norm_num)) (acc.2.1 al ah)
      (ex _ (by norm_num) (by norm_num)) (by norm_num)
    refine this.trans (mul_le_mul_of_nonneg_right (by norm_num) av.le)
  · have a0 : 0 < a := lt_of_lt_of_le (by norm_num) al
    have av : (0 : ℝ) < a := by exact_mod_cast a0
    have := key _ _ al ah (acc.2.2 (lt_of_lt_of_le (by norm_num) al) (lt_of_le_of_lt ah (by norm_num)))
      (ex _ (by norm_num) (by norm_num)) (by norm_num)
    refine this.trans (mul_le_mul_of_nonneg_right (by norm_num) av.le)

/-- **C61.** Round trip: converting a level to amplitude and back gives the level up to 0.0004 dB between -18 and 18 dB,
0.021 dB between -60 and 60 dB, and 0.53 dB between -120 and 120 dB. -/
theorem C61_level_round_trip (d b v : ℚ) (hd : Rep 24 (-149) d) (e1 : db2a fl fd d = .ok b)
    (e2 : a2db fl fd b = .ok v) :
    (-18 ≤ d → d ≤ 18 → |(v : ℝ) - d| ≤ 4 / 10000) ∧
    (-60 ≤ d → d ≤ 60 → |(v : ℝ) - d| ≤ 21 / 1000) ∧
    (-120 ≤ d → d ≤ 120 → |(v : ℝ) - d| ≤ 53 / 100) := by
  have rb : Rep 24 (-149) b := by
    have up : ∀ {x w : ℚ}, Rep 24 (-149) x → 0 ≤ x → db2aUp fl fd x = .ok w → Rep 24 (-149) w := by
      intro x w hx h0 ew
      rcases lt_or_ge x 120 with h | h
      · obtain ⟨k, μ, -, -, -, -, e'⟩ := inv_cell L D hx h0 h
        rw [ew] at e'; injection e' with e'; rw [e']; exact L.rep _
      · rw [inv_sat h] at ew; injection ew with ew; rw [← ew]
        exact ⟨1000000, 0, by norm_num, by norm_num, by norm_num⟩
    rcases db2a_cases L D hd e1 with ⟨h, i⟩ | ⟨h, w, i, w1, w2, hw⟩
    · exact up hd h i
    · rw [hw]; exact L.rep _
  have b0 : 0 < b := by
    obtain ⟨b', eb, h, -⟩ := C61_db2a_total L D d hd
    rw [e1] at eb; injection eb with eb; rw [eb]; exact h
  have bv : (0 : ℝ) < b := by exact_mod_cast b0
  -- the level of the amplitude returned
  have lev : -120 ≤ d → d ≤ 120 → |20 * Real.logb 10 b - d| ≤ 3 / 10 ^ 4 := by
    intro h1 h2
    have ac := C61_db2a_accuracy L D d b hd h1 h2 e1
    have B0 : 0 < (10 : ℝ) ^ ((d : ℝ) / 20) := Real.rpow_pos_of_pos (by norm_num) _
    have ed : (d : ℝ) = dB ((10 : ℝ) ^ ((d : ℝ) / 20)) := by
      unfold dB; rw [Real.logb_rpow (by norm_num) (by norm_num)]; ring
    change |dB b - d| ≤ _
    conv_lhs => rw [ed]
    generalize (10 : ℝ) ^ ((d : ℝ) / 20) = B at *
    rw [dB_eq, dB_eq, ← mul_sub, ← Real.log_div bv.ne' B0.ne', abs_mul, abs_of_pos c_bounds.1]
    have q : |(b : ℝ) / B - 1| ≤ 25 / 10 ^ 6 := by
      have e : (b : ℝ) / B - 1 = (b - B) / B := by field_simp
      rw [e, abs_div, abs_of_pos B0, div_le_iff₀ B0]; exact ac
    have z0 : 0 < (b : ℝ) / B := by positivity
    generalize (b : ℝ) / B = z at *
    have lz : |Real.log z| ≤ 26 / 10 ^ 6 := by
      rw [abs_le] at q ⊢
      constructor
      · have := Real.one_sub_inv_le_log_of_pos z0
        have hz : z⁻¹ ≤ 1 + 26 / 10 ^ 6 := by
          rw [inv_le_comm₀ z0 (by norm_num)]
          refine le_trans ?_ (by linarith [q.1] : 1 - 25 / 10 ^ 6 ≤ z)
          norm_num
        linarith
      · have := Real.log_le_sub_one_of_pos z0
        norm_num at q ⊢
        linarith [q.2]
    calc _ ≤ 8.68589 * (26 / 10 ^ 6) := mul_le_mul c_bounds.2 lz (abs_nonneg _) (by norm_num)
      _ ≤ 3 / 10 ^ 4 := by norm_num
  have acc := C61_a2db_accuracy L D b v rb e2
  have logb_le : ∀ x : ℝ, 0 < x → ∀ t : ℝ, dB b ≤ t → t < dB x → (b : ℝ) ≤ x := by
    intro x hx t h1 h2
    by_contra hc
    push Not at hc
    have : dB x ≤ dB b := by
      rw [dB_eq, dB_eq]
      exact mul_le_mul_of_nonneg_left (Real.log_le_log hx hc.le) c_bounds.1.le
    linarith
  have logb_ge : ∀ x : ℝ, 0 < x → ∀ t : ℝ, t ≤ dB b → dB x < t → x ≤ (b : ℝ) := by
    intro x hx t h1 h2
    by_contra hc
    push Not at hc
    have : dB b ≤ dB x := by
      rw [dB_eq, dB_eq]
      exact mul_le_mul_of_nonneg_left (Real.log_le_log bv hc.le) c_bounds.1.le
    linarith
  have two : 6.0205 ≤ dB 2 := by
    have := (abs_le.mp near_two).2
    norm_num at this ⊢; linarith
  have d8 : dB 8 = 3 * dB 2 := by rw [show (8 : ℝ) = 2 ^ 3 by norm_num, dB_two_pow]; norm_num
  have d10 : dB 1024 = 10 * dB 2 := by rw [show (1024 : ℝ) = 2 ^ 10 by norm_num, dB_two_pow]; norm_num
  have d20 : dB 1048575 ≥ 120.2 := by
    have h1 : dB (2 ^ 20) = 20 * dB 2 := by rw [dB_two_pow]; norm_num
    have h2 : dB (2 ^ 20) = dB 1048575 + dB (2 ^ 20 / 1048575) := by
      rw [← dB_mul (by norm_num) (by norm_num)]; congr 1; norm_num
    have h3 : dB (2 ^ 20 / 1048575) ≤ 0.001 := by
      rw [dB_eq]
      have := Real.log_le_sub_one_of_pos (x := (2 ^ 20 / 1048575 : ℝ)) (by norm_num)
      have l0 : 0 ≤ Real.log (2 ^ 20 / 1048575 : ℝ) := Real.log_nonneg (by norm_num)
      have c := mul_le_mul c_bounds.2 this l0 (by norm_num)
      refine c.trans (by norm_num)
    norm_num at *
    linarith
  have inv : ∀ x : ℝ, dB (1 / x) = -dB x := by intro x; rw [one_div, dB_inv]
  have fin : ∀ T E : ℝ, |(v : ℝ) - 20 * Real.logb 10 b| ≤ T → |20 * Real.logb 10 b - d| ≤ 3 / 10 ^ 4 →
      T + 3 / 10 ^ 4 ≤ E → |(v : ℝ) - d| ≤ E := by
    intro T E h1 h2 h3
    have := abs_sub_le (v : ℝ) (20 * Real.logb 10 b) d
    linarith
  have lev' : -120 ≤ d → d ≤ 120 → |dB b - d| ≤ 3 / 10 ^ 4 := lev
  refine ⟨fun h1 h2 => ?_, fun h1 h2 => ?_, fun h1 h2 => ?_⟩
  · have l := lev (by linarith) (by linarith)
    have l' := abs_le.mp (lev' (by linarith) (by linarith))
    have c1 : (-18 : ℝ) ≤ d := by exact_mod_cast h1
    have c2 : (d : ℝ) ≤ 18 := by exact_mod_cast h2
    have u : (b : ℝ) ≤ 8 := logb_le 8 (by norm_num) 18.01 (by norm_num at *; linarith) (by rw [d8]; norm_num at *; linarith)
    have w : (1 / 8 : ℝ) ≤ b := logb_ge (1 / 8) (by norm_num) (-18.01) (by norm_num at *; linarith) (by rw [inv, d8]; norm_num at *; linarith)
    refine fin _ _ (acc.1 ?_ ?_) l (by norm_num)
    · have : ((1 / 8 : ℚ) : ℝ) ≤ b := by push_cast; exact w
      exact_mod_cast this
    · exact_mod_cast u
  · have l := lev (by linarith) (by linarith)
    have l' := abs_le.mp (lev' (by linarith) (by linarith))
    have c1 : (-60 : ℝ) ≤ d := by exact_mod_cast h1
    have c2 : (d : ℝ) ≤ 60 := by exact_mod_cast h2
    have u : (b : ℝ) ≤ 1024 := logb_le 1024 (by norm_num) 60.01 (by norm_num at *; linarith) (by rw [d10]; norm_num at *; linarith)
    have w : (1 / 1024 : ℝ) ≤ b := logb_ge (1 / 1024) (by norm_num) (-60.01) (by norm_num at *; linarith) (by rw [inv, d10]; norm_num at *; linarith)
    refine fin _ _ (acc.2.1 ?_ ?_) l (by norm_num)
    · have : ((1 / 1024 : ℚ) : ℝ) ≤ b := by push_cast; exact w
      exact_mod_cast this
    · exact_mod_cast u
  · have l := lev (by linarith) (by linarith)
    have l' := abs_le.mp (lev' (by linarith) (by linarith))
    have c1 : (-120 : ℝ) ≤ d := by exact_mod_cast h1
    have c2 : (d : ℝ) ≤ 120 := by exact_mod_cast h2
    have u : (b : ℝ) ≤ 1048575 := logb_le 1048575 (by norm_num) 120.1 (by norm_num at *; linarith) (by norm_num at *; linarith)
    have w : (1 / 1048575 : ℝ) ≤ b := logb_ge (1 / 1048575) (by norm_num) (-120.1) (by norm_num at *; linarith) (by rw [inv]; norm_num at *; linarith)
    refine fin _ _ (acc.2.2 ?_ ?_) l (by norm_num)
    · have : ((1 / 1048575 : ℚ) : ℝ) ≤ b := by push_cast; exact w
      have : (1 / 1048575 : ℚ) ≤ b := by exact_mod_cast this
      exact lt_of_lt_of_le (by norm_num) this
    · have : b ≤ 1048575 := by exact_mod_cast u
      exact lt_of_le_of_lt this (by norm_num)

/-- The hypotheses are met: the level of amplitude 10 is exactly 20 dB, and 20 dB are exactly amplitude 10. -/
theorem C61_ten : a2db fl fd 10 = .ok 20 ∧ db2a fl fd 20 = .ok 10 := by
  have r10 : Rep 24 (-149) (10 : ℚ) := ⟨10, 0, by norm_num, by norm_num, by norm_num⟩
  have r10' : Rep 53 (-1074) (10 : ℚ) := ⟨10, 0, by norm_num, by norm_num, by norm_num⟩
  have r20 : Rep 24 (-149) (20 : ℚ) := ⟨20, 0, by norm_num, by norm_num, by norm_num⟩
  have r20' : Rep 53 (-1074) (20 : ℚ) := ⟨20, 0, by norm_num, by norm_num, by norm_num⟩
  have t1 : table1[9]? = some (20 * 10 ^ 15) ∧ invTable[200]? = some (10 * 10 ^ 15) := by decide +kernel
  constructor
  · obtain ⟨k, μ, hk0, hk, m0, m1, ea, e⟩ := up1 L D r10 (by norm_num) (by norm_num)
    have hk9 : k = 9 := by
      have h1 : (k : ℚ) < 10 := by linarith
      have h2 : (8 : ℚ) < k := by linarith
      have h1' : k < 10 := by exact_mod_cast h1
      have h2' : 8 < k := by exact_mod_cast h2
      omega
    subst hk9
    have hμ : μ = 0 := by push_cast at ea; linarith
    subst hμ
    unfold a2db
    rw [if_neg (by norm_num), if_neg (by norm_num), if_neg (by norm_num), e,
      Interp.at_zero L (cell L D chains.2.1 (by rw [lengths.2.1]; norm_num))]
    unfold val
    rw [t1.1]
    have : (((some (20 * 10 ^ 15) : Option ℤ).getD 0 : ℤ) : ℚ) / 10 ^ 15 = 20 := by norm_num
    rw [this, D.fix _ r20', L.fix _ r20]
  · obtain ⟨k, μ, hk, m0, m1, ea, e⟩ := inv_cell L D r20 (by norm_num) (by norm_num)
    have r200 : Rep 24 (-149) (20 * 10 : ℚ) := ⟨200, 0, by norm_num, by norm_num, by norm_num⟩
    rw [L.fix _ r200] at ea
    have hk9 : k = 200 := by
      have h1 : (k : ℚ) < 201 := by linarith
      have h2 : (199 : ℚ) < k := by linarith
      have h1' : k < 201 := by exact_mod_cast h1
      have h2' : 199 < k := by exact_mod_cast h2
      omega
    subst hk9
    have hμ : μ = 0 := by push_cast at ea; linarith
    subst hμ
    unfold db2a
    rw [if_neg (by norm_num), e, Interp.at_zero L (cell L D chains.2.2.2 (by rw [lengths.2.2.2]; norm_num))]
    unfold val
    rw [t1.2]
    have : (((some (10 * 10 ^ 15) : Option ℤ).getD 0 : ℤ) : ℚ) / 10 ^ 15 = 10 := by norm_num
    rw [this, D.fix _ r10', L.fix _ r10]

/-- The laws of rounding are met by IEEE rounding. -/
example := @C61_ten fl32 fl64 fl32_lawful fl64_lawful

end
end Verif
