import Verif.Model.Osc
import Verif.Proof.Rounding
import Mathlib.Tactic.NormNum
/-!
# Bounds of the polynomial band-limited step and ramp under rounding
-/
namespace Verif
namespace Osc
open Phase Rounding

variable {fl fd : ℚ → ℚ}

theorem one_rep : Rep 24 (-149) 1 := ⟨1, 0, by norm_num, by norm_num, by norm_num⟩
theorem zero_rep : Rep 24 (-149) 0 := ⟨0, 0, by norm_num, by norm_num, by norm_num⟩
theorem two_rep : Rep 24 (-149) 2 := ⟨2, 0, by norm_num, by norm_num, by norm_num⟩

theorem double_rep {t : ℚ} (h : Rep 24 (-149) t) : Rep 24 (-149) (t + t) := by
  obtain ⟨m, e, hm, he, rfl⟩ := h
  refine ⟨m, e + 1, hm, by omega, ?_⟩
  rw [zpow_add₀ (by norm_num), zpow_one]; ring

/-- `1 - t` and `2t - 1` are exact for `1/2 ≤ t ≤ 1`. -/
theorem sterbenz {t : ℚ} (h : Rep 24 (-149) t) (h1 : 1 / 2 ≤ t) (h2 : t ≤ 1) :
    Rep 24 (-149) (t - 1) ∧ Rep 24 (-149) (2 * t - 1) := by
  obtain ⟨m, e, hm, he, rfl⟩ := h
  rcases le_or_gt 0 e with h | h
  · obtain ⟨k, rfl⟩ := Int.eq_ofNat_of_zero_le h
    have e1 : (m : ℚ) * (2 : ℚ) ^ ((k : ℕ) : ℤ) = ((m * 2 ^ k : ℤ) : ℚ) := by push_cast; simp
    rw [e1] at h1 h2 ⊢
    generalize m * 2 ^ k = z at *
    have hz2 : z ≤ 1 := by exact_mod_cast h2
    have hz1 : 0 < z := by
      have : (0 : ℚ) < z := by linarith
      exact_mod_cast this
    have : z = 1 := by omega
    subst this
    norm_num
    exact ⟨zero_rep, one_rep⟩
  · obtain ⟨k, hk⟩ := Int.eq_ofNat_of_zero_le (a := -e) (by omega)
    have e1 : (2 : ℚ) ^ e = 1 / 2 ^ k := by
      have : e = -((k : ℕ) : ℤ) := by omega
      rw [this, zpow_neg, zpow_natCast, one_div]
    have hpos : (0 : ℚ) < 2 ^ k := by positivity
    have h1' : (2 : ℚ) ^ k ≤ 2 * m := by
      rw [e1, mul_one_div, le_div_iff₀ hpos] at h1; linarith
    have h2' : (m : ℚ) ≤ 2 ^ k := by
      rw [e1, mul_one_div, div_le_iff₀ hpos] at h2; linarith
    have h1z : (2 : ℤ) ^ k ≤ 2 * m := by exact_mod_cast h1'
    have h2z : m ≤ (2 : ℤ) ^ k := by exact_mod_cast h2'
    have hm' : m ≤ 2 ^ 24 := (le_abs_self m).trans hm
    refine ⟨⟨m - 2 ^ k, e, ?_, he, ?_⟩, ⟨2 * m - 2 ^ k, e, ?_, he, ?_⟩⟩
    · rw [abs_le]; constructor <;> omega
    · rw [e1]; push_cast; field_simp
    · rw [abs_le]; constructor <;> omega
    · rw [e1]; push_cast; field_simp

section
variable (L : Lawful 24 (-149) fl)
include L

theorem fl_one : fl 1 = 1 := L.fix 1 one_rep
theorem fl_neg_one : fl (-1) = -1 := L.fix _ (rep_neg one_rep)

theorem fl_unit {x : ℚ} (h0 : 0 ≤ x) (h1 : x ≤ 1) : 0 ≤ fl x ∧ fl x ≤ 1 :=
  ⟨L.nonneg h0, L.le_of_rep one_rep h1⟩

theorem fl_sym {x : ℚ} (h0 : -1 ≤ x) (h1 : x ≤ 1) : -1 ≤ fl x ∧ fl x ≤ 1 :=
  ⟨L.ge_of_rep (rep_neg one_rep) h0, L.le_of_rep one_rep h1⟩

theorem ofU32_nonneg (p : Phase.Rep) : 0 ≤ ofU32 fl p := L.nonneg (by positivity)
theorem ofU32_mono {p q : Phase.Rep} (h : p.toNat ≤ q.toNat) : ofU32 fl p ≤ ofU32 fl q :=
  L.mono _ _ (by exact_mod_cast h)
theorem ofU32_pos {p : Phase.Rep} (h : 0 < p.toNat) : 1 ≤ ofU32 fl p :=
  L.ge_of_rep one_rep (by exact_mod_cast h)

theorem ratio_unit {p dt : Phase.Rep} (h : p.toNat ≤ dt.toNat) (h0 : 0 < dt.toNat) :
    0 ≤ fl (ofU32 fl p / ofU32 fl dt) ∧ fl (ofU32 fl p / ofU32 fl dt) ≤ 1 := by
  have h1 := ofU32_pos L h0
  have h2 := ofU32_nonneg L p
  have h3 := ofU32_mono L h
  apply fl_unit L
  · positivity
  · rw [div_le_one (by linarith)]; exact h3

/-- Squares of numbers in the unit interval stay between `2t - 1` and `t` after rounding. -/
theorem sq_bounds {t : ℚ} (ht : Rep 24 (-149) t) (h0 : 0 ≤ t) (h1 : t ≤ 1) :
    0 ≤ fl (t * t) ∧ fl (t * t) ≤ t ∧ 2 * t - 1 ≤ fl (t * t) := by
  refine ⟨L.nonneg (by positivity), L.le_of_rep ht (by nlinarith), ?_⟩
  rcases le_or_gt (1 / 2) t with h | h
  · exact L.ge_of_rep (sterbenz ht h h1).2 (by nlinarith)
  · have := L.nonneg (x := t * t) (by positivity); linarith

theorem blep_first {p dt : Phase.Rep} (h : p.toNat < dt.toNat) :
    -1 ≤ poly_blep fl p dt ∧ poly_blep fl p dt ≤ 0 := by
  obtain ⟨h0, h1⟩ := ratio_unit L (p := p) (dt := dt) h.le (by omega)
  have ht : Rep 24 (-149) (fl (ofU32 fl p / ofU32 fl dt)) := L.rep _
  unfold poly_blep
  rw [if_pos (by simpa [BitVec.ult] using h)]
  simp only
  generalize fl (ofU32 fl p / ofU32 fl dt) = t at *
  obtain ⟨s0, s1, s2⟩ := sq_bounds L ht h0 h1
  rw [L.fix _ (double_rep ht)]
  generalize fl (t * t) = s at *
  obtain ⟨a0, a1⟩ := fl_unit L (x := t + t - s) (by linarith) (by linarith)
  generalize fl (t + t - s) = a at *
  exact ⟨L.ge_of_rep (rep_neg one_rep) (by linarith), L.nonpos (by linarith)⟩

theorem blep_notFirst {p dt : Phase.Rep} (h : ¬ p.toNat < dt.toNat) :
    0 ≤ poly_blep fl p dt ∧ poly_blep fl p dt ≤ 1 := by
  have hdt := dt.isLt
  have hpl := p.isLt
  have he : end_.toNat = 2 ^ 32 - 1 := by decide
  unfold poly_blep
  rw [if_neg (by simpa [BitVec.ult] using h)]
  by_cases hp : (end_ - dt).ult p = true
  · rw [if_pos hp]
    rw [BitVec.ult, decide_eq_true_eq, BitVec.toNat_sub, he] at hp
    have hs : (end_ - p).toNat = 2 ^ 32 - 1 - p.toNat := by
      rw [BitVec.toNat_sub, he]; omega
    obtain ⟨h0, h1⟩ := ratio_unit L (p := end_ - p) (dt := dt) (by omega) (by omega)
    have ht : Rep 24 (-149) (fl (ofU32 fl (end_ - p) / ofU32 fl dt)) := L.rep _
    rw [neg_div, L.neg]
    clear hs hp he hdt hpl h
    simp only
    generalize fl (ofU32 fl (end_ - p) / ofU32 fl dt) = t at *
    obtain ⟨s0, s1, s2⟩ := sq_bounds L ht h0 h1
    rw [neg_mul_neg]
    generalize fl (t * t) = s at *
    -- u = fl (s - t)
    have u1 : fl (s + -t) ≤ 0 := L.nonpos (by linarith)
    have u0 : -t ≤ fl (s + -t) := L.ge_of_rep (rep_neg ht) (by linarith)
    have u2 : t - 1 ≤ fl (s + -t) := by
      rcases le_or_gt (1 / 2) t with h | h
      · exact L.ge_of_rep (sterbenz ht h h1).1 (by linarith)
      · linarith
    generalize fl (s + -t) = u at *
    obtain ⟨v0, _⟩ := fl_sym L (x := u + -t) (by linarith) (by linarith)
    have v1 : fl (u + -t) ≤ 0 := L.nonpos (by linarith)
    generalize fl (u + -t) = v at *
    exact fl_unit L (x := v + 1) (by linarith) (by linarith)
  · rw [if_neg hp]; exact ⟨le_rfl, by norm_num⟩

omit L in
/-- Away from both ends of the turn there is no correction. -/
theorem blep_mid {p dt : Phase.Rep} (h : ¬ p.toNat < dt.toNat) (h2 : p.toNat ≤ 2 ^ 32 - 1 - dt.toNat) :
    poly_blep fl p dt = 0 := by
  have hdt := dt.isLt
  have he : end_.toNat = 2 ^ 32 - 1 := by decide
  unfold poly_blep
  have hp : ¬ (end_ - dt).ult p = true := by
    rw [BitVec.ult, decide_eq_true_eq, BitVec.toNat_sub, he]
    omega
  rw [if_neg (by simpa [BitVec.ult] using h), if_neg hp]

theorem blep_notLast {p dt : Phase.Rep} (h2 : p.toNat ≤ 2 ^ 32 - 1 - dt.toNat) :
    -1 ≤ poly_blep fl p dt ∧ poly_blep fl p dt ≤ 0 := by
  by_cases h : p.toNat < dt.toNat
  · exact blep_first L h
  · rw [blep_mid h h2]; norm_num

/-- `float(0xffffffff)` is `2^32`. -/
theorem ofU32_one_cyc : ofU32 fl one_cyc = 2 ^ 32 := by
  have he : one_cyc.toNat = 4294967295 := by decide
  have hr : Rep 24 (-149) ((2 : ℚ) ^ (32 : ℤ)) := rep_zpow (by norm_num)
  have e32 : (2 : ℚ) ^ (32 : ℤ) = 4294967296 := by norm_num
  have hn := L.nearest 4294967295 _ hr
  have hle := L.le_of_rep (x := 4294967295) hr (by rw [e32]; norm_num)
  rw [e32] at hn hle
  obtain ⟨m, e, hm, _, hx⟩ := L.rep 4294967295
  have hge : 4294967294 ≤ fl 4294967295 := by
    have : |(4294967296 : ℚ) - 4294967295| = 1 := by norm_num
    rw [this, abs_le] at hn
    linarith [hn.1]
  unfold ofU32
  rw [he]
  have e2 : (2 : ℚ) ^ 32 = 4294967296 := by norm_num
  push_cast
  rw [e2]
  rw [hx] at hge hle ⊢
  have hm' : (m : ℚ) ≤ 2 ^ 24 := by exact_mod_cast (le_abs_self m).trans hm
  have h8 : 8 ≤ e := by
    by_contra hc
    have h1 : (2 : ℚ) ^ e ≤ (2 : ℚ) ^ (7 : ℤ) := zpow_le_zpow_right₀ (by norm_num) (by omega)
    have h2 : (2 : ℚ) ^ (7 : ℤ) = 128 := by norm_num
    have h3 := two_zpow_pos e
    rw [h2] at h1
    have : (m : ℚ) * (2 : ℚ) ^ e ≤ 2 ^ 24 * 128 := by
      calc (m : ℚ) * (2 : ℚ) ^ e ≤ 2 ^ 24 * (2 : ℚ) ^ e := by gcongr
        _ ≤ _ := by gcongr
    norm_num at this
    linarith
  rw [rep_mul h8] at hge hle ⊢
  generalize m * 2 ^ (e - 8).toNat = k at *
  have e8 : (2 : ℚ) ^ (8 : ℤ) = 256 := by norm_num
  rw [e8] at hge hle ⊢
  have a1 : (4294967294 : ℤ) ≤ k * 256 := by exact_mod_cast hge
  have a2 : k * 256 ≤ (4294967296 : ℤ) := by exact_mod_cast hle
  have : k = 16777216 := by omega
  rw [this]; norm_num

theorem saw_x_eq : saw_x fl = 1 / 2 ^ 31 := by
  have h := ofU32_one_cyc L
  unfold saw_x
  rw [h]
  have : (2 : ℚ) / 2 ^ 32 = 1 / 2 ^ 31 := by norm_num
  rw [this]
  exact L.fix _ ⟨1, -31, by norm_num, by norm_num, by norm_num⟩

theorem tri_x_eq : tri_x fl = 1 / 2 ^ 30 := by
  have h := ofU32_one_cyc L
  unfold tri_x
  rw [h]
  have : (4 : ℚ) / 2 ^ 32 = 1 / 2 ^ 30 := by norm_num
  rw [this]
  exact L.fix _ ⟨1, -30, by norm_num, by norm_num, by norm_num⟩

end
end Osc
end Verif
