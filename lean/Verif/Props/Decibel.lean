import Verif.Proof.Decibel
import Verif.Proof.DecibelReal
/-!
# Decibel conversions (C61)

`Rep 24 (-149) a`: `a` is a `float`.  Rounding of every operation is included.
-/
namespace Verif
open Rounding Decibel DbTable

variable {fl fd : ℚ → ℚ}

namespace Decibel
open Interp Sin

section
variable (L : Lawful 24 (-149) fl) (D : Lawful 53 (-1074) fd)
include L D

omit L D in
theorem bind_ok {α β} (v : α) (f : α → C β) : ((Except.ok v : C α) >>= f) = f v := rfl

/-- The cell used by `a2db` for `1 ≤ a < 8`. -/
theorem up0 {a : ℚ} (ha : Rep 24 (-149) a) (h1 : 1 ≤ a) (h8 : a < 8) :
    ∃ (k : ℕ) (μ : ℚ), k < 896 ∧ 0 ≤ μ ∧ μ < 1 ∧ a = 1 + (k + μ) / 128 ∧
      a2dbUp fl fd a = .ok (linear_interpolate fl (val fl fd table0 k) (val fl fd table0 (k + 1)) μ) := by
  have r1 : Rep 24 (-149) (a - 1) := by
    have := rep_sub_nat (by norm_num) ha (k := 1) (by exact_mod_cast h1) (by linarith)
    exact_mod_cast this
  have r2 : Rep 24 (-149) ((a - 1) * 2 ^ 7) := rep_mul_two_pow r1 7
  have r3 : Rep 53 (-1074) ((a - 1) * 2 ^ 7) := by
    obtain ⟨m, e, hm, he, h⟩ := r2
    exact ⟨m, e, hm.trans (by norm_num), by omega, h⟩
  have r128 : Rep 53 (-1074) (1024 / 8 : ℚ) := ⟨128, 0, by norm_num, by norm_num, by norm_num⟩
  have e1 : fl (fd (fl (a - 1) * fd (1024 / 8))) = (a - 1) * 2 ^ 7 := by
    rw [L.fix _ r1, D.fix _ r128, show (a - 1) * (1024 / 8) = (a - 1) * 2 ^ 7 by ring, D.fix _ r3, L.fix _ r2]
  obtain ⟨f1, f2, f3, f4⟩ := frac L r2 (by nlinarith) (by nlinarith)
  set b := (a - 1) * 2 ^ 7 with hb
  have b0 : 0 ≤ b := by rw [hb]; nlinarith
  have hk : ⌊b⌋₊ < 896 := by rw [Nat.floor_lt b0, hb]; push_cast; linarith
  refine ⟨⌊b⌋₊, b - ⌊b⌋₊, hk, f3, f4, by rw [hb]; ring, ?_⟩
  unfold a2dbUp
  rw [if_pos h8, e1]
  dsimp only
  rw [f1, bind_ok, entries0, read_val _ _ (by rw [lengths.1]; omega), bind_ok, read_val _ _ (by rw [lengths.1]; omega),
    bind_ok, f2]
  rfl

/-- The cell used by `a2db` for `8 ≤ a < 1024`. -/
theorem up1 {a : ℚ} (ha : Rep 24 (-149) a) (h1 : 8 ≤ a) (h2 : a < 1024) :
    ∃ (k : ℕ) (μ : ℚ), 7 ≤ k ∧ k < 1023 ∧ 0 ≤ μ ∧ μ < 1 ∧ a = k + 1 + μ ∧
      a2dbUp fl fd a = .ok (linear_interpolate fl (val fl fd table1 k) (val fl fd table1 (k + 1)) μ) := by
  obtain ⟨f1, f2, f3, f4⟩ := frac L ha (by linarith) (by linarith)
  have k1 : 8 ≤ ⌊a⌋₊ := Nat.le_floor (by exact_mod_cast h1)
  have k2 : ⌊a⌋₊ < 1024 := by rw [Nat.floor_lt (by linarith)]; exact_mod_cast h2
  have ek : ((⌊a⌋₊ - 1 : ℕ) : ℚ) = ⌊a⌋₊ - 1 := by push_cast [Nat.cast_sub (by omega : 1 ≤ ⌊a⌋₊)]; ring
  refine ⟨⌊a⌋₊ - 1, a - ⌊a⌋₊, by omega, by omega, f3, f4, by rw [ek]; ring, ?_⟩
  unfold a2dbUp
  rw [if_neg (by linarith), if_pos h2, f1]
  rw [bind_ok, entries1, read_val _ _ (by rw [lengths.2.1]; omega), bind_ok,
    read_val _ _ (by rw [lengths.2.1]; omega), bind_ok, f2, show ⌊a⌋₊ - 1 + 1 = ⌊a⌋₊ by omega]
  rfl

/-- The cell used by `a2db` for `1024 ≤ a < 1048576`. -/
theorem up2 {a : ℚ} (ha : Rep 24 (-149) a) (h1 : 1024 ≤ a) (h2 : a < 1048576) :
    ∃ (k : ℕ) (μ : ℚ), k < 1023 ∧ 0 ≤ μ ∧ μ < 1 ∧ a = 1024 * (k + 1 + μ) ∧
      a2dbUp fl fd a = .ok (linear_interpolate fl (val fl fd table2 k) (val fl fd table2 (k + 1)) μ) := by
  have r2 : Rep 24 (-149) (a / 1024) := by
    obtain ⟨z, hz⟩ := rep_grid (by norm_num) ha (j := 10) (by norm_num; exact h1)
    obtain ⟨m, e, hm, he, h⟩ := ha
    rcases le_or_gt (-139) e with h' | h'
    · exact ⟨m, e - 10, hm, by omega, by rw [h, zpow_sub₀ (by norm_num)]; norm_num; ring⟩
    · exfalso
      have a1 : (m : ℚ) ≤ 2 ^ 24 := by exact_mod_cast (le_abs_self m).trans hm
      have a2 : (2 : ℚ) ^ e ≤ (2 : ℚ) ^ (-30 : ℤ) := zpow_le_zpow_right₀ (by norm_num) (by omega)
      have : (m : ℚ) * 2 ^ e ≤ 2 ^ 24 * (2 : ℚ) ^ (-30 : ℤ) := mul_le_mul a1 a2 (two_zpow_pos e).le (by norm_num)
      rw [← h] at this
      norm_num at this
      linarith
  have r3 : Rep 53 (-1074) (a / 1024) := by
    obtain ⟨m, e, hm, he, h⟩ := r2
    exact ⟨m, e, hm.trans (by norm_num), by omega, h⟩
  have e1 : fl (fd (a / 1024)) = a / 1024 := by rw [D.fix _ r3, L.fix _ r2]
  have b1 : 1 ≤ a / 1024 := by rw [le_div_iff₀ (by norm_num)]; linarith
  have b2 : a / 1024 < 1024 := by rw [div_lt_iff₀ (by norm_num)]; linarith
  obtain ⟨f1, f2, f3, f4⟩ := frac L r2 (by linarith) (by linarith)
  set b := a / 1024 with hb
  have k1 : 1 ≤ ⌊b⌋₊ := Nat.le_floor (by exact_mod_cast b1)
  have k2 : ⌊b⌋₊ < 1024 := by rw [Nat.floor_lt (by linarith)]; exact_mod_cast b2
  have ek : ((⌊b⌋₊ - 1 : ℕ) : ℚ) = ⌊b⌋₊ - 1 := by push_cast [Nat.cast_sub k1]; ring
  refine ⟨⌊b⌋₊ - 1, b - ⌊b⌋₊, by omega, f3, f4, by rw [ek, hb]; ring, ?_⟩
  unfold a2dbUp
  rw [if_neg (by linarith), if_neg (by linarith), if_pos h2, e1]
  dsimp only
  rw [f1, bind_ok, entries2, read_val _ _ (by rw [lengths.2.2.1]; omega), bind_ok,
    read_val _ _ (by rw [lengths.2.2.1]; omega), bind_ok, f2, show ⌊b⌋₊ - 1 + 1 = ⌊b⌋₊ by omega]
  rfl

omit L D in
theorem up3 {a : ℚ} (h : 1048576 ≤ a) : a2dbUp fl fd a = .ok 121 := by
  unfold a2dbUp
  rw [if_neg (by linarith), if_neg (by linarith), if_neg (by linarith)]; rfl

theorem seam_vals : val fl fd table0 896 = val fl fd table1 7 ∧ val fl fd table1 1023 = val fl fd table2 0
    ∧ val fl fd table2 1023 ≤ 121 := by
  obtain ⟨s1, s2, s3, -⟩ := seams
  refine ⟨by unfold val; rw [s1], by unfold val; rw [s2], ?_⟩
  unfold val
  rw [s3]
  refine L.le_of_rep ⟨121, 0, by norm_num, by norm_num, by norm_num⟩
    (D.le_of_rep ⟨121, 0, by norm_num, by norm_num, by norm_num⟩ ?_)
  norm_num

theorem val_zero : val fl fd table0 0 = 0 := by
  unfold val; rw [first0]; simp [D.zero, L.zero]

/-- Every amplitude from one on has a level, in the range of its table. -/
theorem up_range {a : ℚ} (ha : Rep 24 (-149) a) (h1 : 1 ≤ a) : ∃ v, a2dbUp fl fd a = .ok v ∧
    (a < 8 → 0 ≤ v ∧ v ≤ val fl fd table1 7) ∧
    (8 ≤ a → a < 1024 → val fl fd table1 7 ≤ v ∧ v ≤ val fl fd table2 0) ∧
    (1024 ≤ a → a < 1048576 → val fl fd table2 0 ≤ v ∧ v ≤ 121) ∧ (1048576 ≤ a → v = 121) := by
  obtain ⟨s1, s2, s3⟩ := seam_vals L D
  have c0 := chains.1
  have c1 := chains.2.1
  have c2 := chains.2.2.1
  rcases lt_or_ge a 8 with h8 | h8
  · obtain ⟨k, μ, hk, m0, m1, -, e⟩ := up0 L D ha h1 h8
    have c := cell L D c0 (k := k) (by rw [lengths.1]; omega)
    refine ⟨_, e, fun _ => ⟨?_, ?_⟩, fun h => by linarith, fun h => by linarith, fun h => by linarith⟩
    · exact c.n1.trans (Interp.ge L c m0)
    · rw [← s1]
      exact (Interp.le L c m1.le).trans (val_mono L D c0 (by omega) (by rw [lengths.1]; omega))
  rcases lt_or_ge a 1024 with h10 | h10
  · obtain ⟨k, μ, hk0, hk, m0, m1, -, e⟩ := up1 L D ha h8 h10
    have c := cell L D c1 (k := k) (by rw [lengths.2.1]; omega)
    refine ⟨_, e, fun h => by linarith, fun _ _ => ⟨?_, ?_⟩, fun h => by linarith, fun h => by linarith⟩
    · exact (val_mono L D c1 hk0 (by rw [lengths.2.1]; omega)).trans (Interp.ge L c m0)
    · rw [← s2]
      exact (Interp.le L c m1.le).trans (val_mono L D c1 (by omega) (by rw [lengths.2.1]; omega))
  rcases lt_or_ge a 1048576 with h20 | h20
  · obtain ⟨k, μ, hk, m0, m1, -, e⟩ := up2 L D ha h10 h20
    have c := cell L D c2 (k := k) (by rw [lengths.2.2.1]; omega)
    refine ⟨_, e, fun h => by linarith, fun _ h => by linarith, fun _ _ => ⟨?_, ?_⟩, fun h => by linarith⟩
    · exact (val_mono L D c2 (Nat.zero_le _) (by rw [lengths.2.2.1]; omega)).trans (Interp.ge L c m0)
    · exact ((Interp.le L c m1.le).trans (val_mono L D c2 (by omega) (by rw [lengths.2.2.1]; omega))).trans s3
  · exact ⟨121, up3 h20, fun h => by linarith, fun _ h => by linarith, fun _ h => by linarith, fun _ => rfl⟩

theorem knots : 0 ≤ val fl fd table1 7 ∧ val fl fd table1 7 ≤ val fl fd table2 0 ∧ val fl fd table2 0 ≤ 121 := by
  obtain ⟨s1, s2, s3⟩ := seam_vals L D
  refine ⟨(cell L D chains.2.1 (k := 7) (by rw [lengths.2.1]; norm_num)).n1, ?_, ?_⟩
  · rw [← s2]; exact val_mono L D chains.2.1 (by norm_num) (by rw [lengths.2.1]; norm_num)
  · exact le_trans (val_mono L D chains.2.2.1 (Nat.zero_le 1023) (by rw [lengths.2.2.1]; norm_num)) s3

theorem up_mono {a b v w : ℚ} (ha : Rep 24 (-149) a) (hb : Rep 24 (-149) b) (h1 : 1 ≤ a) (hab : a ≤ b)
    (ev : a2dbUp fl fd a = .ok v) (ew : a2dbUp fl fd b = .ok w) : v ≤ w := by
  obtain ⟨v', e1, a1, a2, a3, a4⟩ := up_range L D ha h1
  obtain ⟨w', e2, b1, b2, b3, b4⟩ := up_range L D hb (h1.trans hab)
  rw [ev] at e1; injection e1 with e1; subst e1
  rw [ew] at e2; injection e2 with e2; subst e2
  obtain ⟨k0, k1, k2⟩ := knots L D
  rcases lt_or_ge b 8 with hb8 | hb8
  · obtain ⟨j, μ, hj, m0, m1, ea, e⟩ := up0 L D ha h1 (by linarith)
    obtain ⟨k, ν, hk, n0, n1, eb, e'⟩ := up0 L D hb (by linarith) hb8
    rw [ev] at e; injection e with e
    rw [ew] at e'; injection e' with e'
    rw [e, e']
    exact interp_mono L D chains.1 (by rw [lengths.1]; omega) (by rw [lengths.1]; omega) m0 m1 n0 n1 (by linarith)
  rcases lt_or_ge b 1024 with hb10 | hb10
  · rcases lt_or_ge a 8 with ha8 | ha8
    · linarith [(a1 ha8).2, (b2 hb8 hb10).1]
    · obtain ⟨j, μ, _, hj, m0, m1, ea, e⟩ := up1 L D ha ha8 (by linarith)
      obtain ⟨k, ν, _, hk, n0, n1, eb, e'⟩ := up1 L D hb hb8 hb10
      rw [ev] at e; injection e with e
      rw [ew] at e'; injection e' with e'
      rw [e, e']
      exact interp_mono L D chains.2.1 (by rw [lengths.2.1]; omega) (by rw [lengths.2.1]; omega) m0 m1 n0 n1 (by linarith)
  rcases lt_or_ge b 1048576 with hb20 | hb20
  · have := (b3 hb10 hb20).1
    rcases lt_or_ge a 8 with ha8 | ha8
    · linarith [(a1 ha8).2]
    rcases lt_or_ge a 1024 with ha10 | ha10
    · linarith [(a2 ha8 ha10).2]
    obtain ⟨j, μ, hj, m0, m1, ea, e⟩ := up2 L D ha ha10 (by linarith)
    obtain ⟨k, ν, hk, n0, n1, eb, e'⟩ := up2 L D hb hb10 hb20
    rw [ev] at e; injection e with e
    rw [ew] at e'; injection e' with e'
    rw [e, e']
    exact interp_mono L D chains.2.2.1 (by rw [lengths.2.2.1]; omega) (by rw [lengths.2.2.1]; omega) m0 m1 n0 n1 (by linarith)
  · have := b4 hb20
    rcases lt_or_ge a 8 with ha8 | ha8
    · linarith [(a1 ha8).2]
    rcases lt_or_ge a 1024 with ha10 | ha10
    · linarith [(a2 ha8 ha10).2]
    rcases lt_or_ge a 1048576 with ha20 | ha20
    · linarith [(a3 ha10 ha20).2]
    · linarith [a4 ha20]

omit D in
theorem inv_ge_one {a : ℚ} (h0 : 0 < a) (h1 : a < 1) : 1 ≤ fl (1 / a) :=
  L.ge_of_rep ⟨1, 0, by norm_num, by norm_num, by norm_num⟩ (by rw [le_div_iff₀ h0]; linarith)

theorem up_abs {a v : ℚ} (ha : Rep 24 (-149) a) (h1 : 1 ≤ a) (e : a2dbUp fl fd a = .ok v) : 0 ≤ v ∧ v ≤ 121 := by
  obtain ⟨w, e', a1, a2, a3, a4⟩ := up_range L D ha h1
  rw [e] at e'; injection e' with e'; subst e'
  obtain ⟨k0, k1, k2⟩ := knots L D
  rcases lt_or_ge a 8 with ha8 | ha8
  · constructor <;> linarith [a1 ha8]
  rcases lt_or_ge a 1024 with ha10 | ha10
  · constructor <;> linarith [a2 ha8 ha10]
  rcases lt_or_ge a 1048576 with ha20 | ha20
  · constructor <;> linarith [a3 ha10 ha20]
  · rw [a4 ha20]; norm_num

/-- How `a2db` uses `a2dbUp`. -/
theorem a2db_cases {a v : ℚ} (h0 : 0 ≤ a) (e : a2db fl fd a = .ok v) :
    (a = 0 ∧ v = -121) ∨ (0 < a ∧ a < 1 ∧ a2dbUp fl fd (fl (1 / a)) = .ok (-v)) ∨ (1 ≤ a ∧ a2dbUp fl fd a = .ok v) := by
  unfold a2db at e
  rw [if_neg (by linarith)] at e
  by_cases hz : a = 0
  · rw [if_pos hz] at e
    injection e with e
    exact Or.inl ⟨hz, e.symm⟩
  have hp : 0 < a := lt_of_le_of_ne h0 (Ne.symm hz)
  rw [if_neg hz] at e
  by_cases h1 : a < 1
  · rw [if_pos h1] at e
    obtain ⟨w, ew, -⟩ := up_range L D (L.rep (1 / a)) (inv_ge_one L hp h1)
    rw [ew, bind_ok] at e
    injection e with e
    exact Or.inr (Or.inl ⟨hp, h1, by rw [ew, ← e, neg_neg]⟩)
  · rw [if_neg h1] at e
    exact Or.inr (Or.inr ⟨by linarith, e⟩)

end
end Decibel

section
variable (L : Lawful 24 (-149) fl) (D : Lawful 53 (-1074) fd)
include L D

/-- **C61.** Amplitude to decibel never reads outside the tables, for any float `a ≥ 0`; the result lies between
-121 and 121, is non-negative from amplitude one on and non-positive below.  A negative amplitude trips the
assertion. -/
theorem C61_a2db_total (a : ℚ) (ha : Rep 24 (-149) a) :
    (0 ≤ a → ∃ v, a2db fl fd a = .ok v ∧ -121 ≤ v ∧ v ≤ 121 ∧ (1 ≤ a → 0 ≤ v) ∧ (a ≤ 1 → v ≤ 0)) ∧
    (a < 0 → a2db fl fd a = .error .assertFail) := by
  refine ⟨fun h0 => ?_, fun h => by unfold a2db; rw [if_pos h]⟩
  rcases eq_or_lt_of_le h0 with h0 | h0
  · refine ⟨-121, ?_, by norm_num, by norm_num, fun h => by linarith, fun _ => by norm_num⟩
    unfold a2db; rw [if_neg (by linarith), if_pos h0.symm]; rfl
  rcases lt_or_ge a 1 with h1 | h1
  · have hi := inv_ge_one L h0 h1
    obtain ⟨w, ew, -⟩ := up_range L D (L.rep (1 / a)) hi
    obtain ⟨w0, w1⟩ := up_abs L D (L.rep (1 / a)) hi ew
    refine ⟨-w, ?_, by linarith, by linarith, fun h => by linarith, fun _ => by linarith⟩
    unfold a2db; rw [if_neg (by linarith), if_neg h0.ne', if_pos h1, ew]; rfl
  · obtain ⟨w, ew, -⟩ := up_range L D ha h1
    obtain ⟨w0, w1⟩ := up_abs L D ha h1 ew
    refine ⟨w, ?_, by linarith, by linarith, fun h => w0, fun h => ?_⟩
    · unfold a2db; rw [if_neg (by linarith), if_neg h0.ne', if_neg (by linarith)]; exact ew
    · have : a = 1 := le_antisymm h h1
      subst this
      obtain ⟨k, μ, hk, m0, m1, e1, e2⟩ := up0 L D ha le_rfl (by norm_num)
      have hk0 : (k : ℚ) + μ = 0 := by linarith
      have kn : (0 : ℚ) ≤ k := Nat.cast_nonneg k
      have hμ : μ = 0 := by linarith
      have hk1 : (k : ℚ) = 0 := by linarith
      have hk2 : k = 0 := by exact_mod_cast hk1
      rw [ew] at e2; injection e2 with e2
      rw [e2, hμ, hk2, Interp.at_zero L (cell L D chains.1 (by rw [lengths.1]; norm_num)), val_zero L D]

/-- **C61.** Amplitude to decibel is monotone, also where it passes from one table to the next. -/
theorem C61_a2db_mono (a b v w : ℚ) (ha : Rep 24 (-149) a) (hb : Rep 24 (-149) b) (h0 : 0 ≤ a) (hab : a ≤ b)
    (ev : a2db fl fd a = .ok v) (ew : a2db fl fd b = .ok w) : v ≤ w := by
  obtain ⟨v', ev', v1, -, v3, v4⟩ := (C61_a2db_total L D a ha).1 h0
  obtain ⟨w', ew', w1, w2, w3, w4⟩ := (C61_a2db_total L D b hb).1 (h0.trans hab)
  rw [ev] at ev'; injection ev' with ev'; subst ev'
  rw [ew] at ew'; injection ew' with ew'; subst ew'
  rcases a2db_cases L D h0 ev with ⟨_, h⟩ | ⟨p, q, h⟩ | ⟨p, h⟩
  · linarith
  · rcases a2db_cases L D (h0.trans hab) ew with ⟨h', _⟩ | ⟨p', q', h'⟩ | ⟨p', h'⟩
    · linarith
    · have := up_mono L D (L.rep (1 / b)) (L.rep (1 / a)) (inv_ge_one L p' q')
        (L.mono _ _ (one_div_le_one_div_of_le p hab)) h' h
      linarith
    · linarith [v4 q.le, w3 p']
  · rcases a2db_cases L D (h0.trans hab) ew with ⟨h', _⟩ | ⟨p', q', h'⟩ | ⟨p', h'⟩
    · linarith
    · linarith
    · exact up_mono L D ha hb p hab h h'

omit D in
/-- **C61.** Saturation: 121 dB from amplitude 2^20 on, -121 dB up to amplitude 2^-20. -/
theorem C61_a2db_saturates (a : ℚ) :
    (1048576 ≤ a → a2db fl fd a = .ok 121) ∧ (0 ≤ a → a ≤ 1 / 1048576 → a2db fl fd a = .ok (-121)) := by
  constructor
  · intro h
    unfold a2db; rw [if_neg (by linarith), if_neg (by linarith), if_neg (by linarith)]; exact up3 h
  · intro h0 h
    unfold a2db
    rw [if_neg (by linarith)]
    by_cases hz : a = 0
    · rw [if_pos hz]; rfl
    · have hp : 0 < a := lt_of_le_of_ne h0 (Ne.symm hz)
      rw [if_neg hz, if_pos (by norm_num at h ⊢; linarith), up3 (L.ge_of_rep ⟨1048576, 0, by norm_num, by norm_num, by norm_num⟩ (by
        rw [le_div_iff₀ hp]; norm_num at h ⊢; linarith))]
      rfl

/-- **C61.** Reciprocal amplitudes have opposite levels: below amplitude one the level is minus the level of the
(rounded) reciprocal. -/
theorem C61_a2db_reciprocal (a : ℚ) (h0 : 0 < a) (h1 : a < 1) (v w : ℚ) (ev : a2db fl fd a = .ok v)
    (ew : a2db fl fd (fl (1 / a)) = .ok w) : w = -v := by
  have hi := inv_ge_one L h0 h1
  rcases a2db_cases L D h0.le ev with ⟨h, _⟩ | ⟨p, q, h⟩ | ⟨p, h⟩
  · linarith
  · rcases a2db_cases L D (by linarith) ew with ⟨h', _⟩ | ⟨p', q', h'⟩ | ⟨p', h'⟩
    · linarith
    · linarith
    · rw [h] at h'; injection h' with h'; exact h'.symm
  · linarith

end
end Verif
