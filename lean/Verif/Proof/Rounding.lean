import Verif.Model.Rounding
/-!
# The rounding function satisfies the laws of rounding to nearest
-/
namespace Verif
namespace Rounding

theorem rneInt_err (y : ℚ) : |(rneInt y : ℚ) - y| ≤ 1 / 2 := by
  have h1 := Int.floor_le y
  have h2 := Int.lt_floor_add_one y
  unfold rneInt
  split
  · rw [abs_le]; constructor <;> linarith
  · split
    · push_cast; rw [abs_le]; constructor <;> linarith
    · split
      · rw [abs_le]; constructor <;> linarith
      · push_cast; rw [abs_le]; constructor <;> linarith

theorem rneInt_nearest (y : ℚ) (k : ℤ) : |(rneInt y : ℚ) - y| ≤ |(k : ℚ) - y| := by
  have h1 := Int.floor_le y
  have h2 := Int.lt_floor_add_one y
  rcases le_or_gt k ⌊y⌋ with hk | hk
  · have hk' : (k : ℚ) ≤ ⌊y⌋ := by exact_mod_cast hk
    have : y - ⌊y⌋ ≤ |(k : ℚ) - y| := by
      rw [abs_of_nonpos (by linarith)]; linarith
    refine le_trans ?_ this
    unfold rneInt
    split
    · rw [abs_le]; constructor <;> linarith
    · split
      · push_cast; rw [abs_le]; constructor <;> linarith
      · split
        · rw [abs_le]; constructor <;> linarith
        · push_cast; rw [abs_le]; constructor <;> linarith
  · have hk' : (⌊y⌋ : ℚ) + 1 ≤ k := by exact_mod_cast hk
    have : ⌊y⌋ + 1 - y ≤ |(k : ℚ) - y| := by
      rw [abs_of_nonneg (by linarith)]; linarith
    refine le_trans ?_ this
    unfold rneInt
    split
    · rw [abs_le]; constructor <;> linarith
    · split
      · push_cast; rw [abs_le]; constructor <;> linarith
      · split
        · rw [abs_le]; constructor <;> linarith
        · push_cast; rw [abs_le]; constructor <;> linarith

theorem rneInt_int (k : ℤ) : rneInt k = k := by
  have h := rneInt_nearest k k
  simp only [sub_self, abs_zero] at h
  have h2 : ((rneInt k : ℤ) : ℚ) - k = 0 := abs_eq_zero.mp (le_antisymm h (abs_nonneg _))
  have : ((rneInt k : ℤ) : ℚ) = k := by linarith
  exact_mod_cast this

theorem floor_neg_of_not_int {y : ℚ} (h : y ≠ ⌊y⌋) : ⌊-y⌋ = -⌊y⌋ - 1 := by
  have h1 := Int.floor_le y
  have h2 := Int.lt_floor_add_one y
  have h3 : (⌊y⌋ : ℚ) < y := lt_of_le_of_ne h1 (fun e => h e.symm)
  rw [Int.floor_eq_iff]
  push_cast
  constructor <;> linarith

theorem rneInt_neg (y : ℚ) : rneInt (-y) = -rneInt y := by
  by_cases hy : y = ⌊y⌋
  · have e1 : -y = ((-⌊y⌋ : ℤ) : ℚ) := by push_cast; linarith
    rw [e1, rneInt_int]
    conv_rhs => rw [hy, rneInt_int]
  · have hf := floor_neg_of_not_int hy
    have h1 := Int.floor_le y
    have h2 := Int.lt_floor_add_one y
    have e : -y - (⌊-y⌋ : ℚ) = 1 - (y - ⌊y⌋) := by rw [hf]; push_cast; ring
    unfold rneInt
    rw [e, hf]
    generalize hd : y - (⌊y⌋ : ℚ) = d at *
    generalize ⌊y⌋ = f at *
    rcases lt_trichotomy d (1 / 2) with h | h | h
    · rw [if_neg (by linarith), if_pos (by linarith), if_pos h]; omega
    · subst h
      have e0 : ¬ ((1 : ℚ) / 2 < 1 / 2) := by norm_num
      have e1 : ¬ ((1 : ℚ) - 1 / 2 < 1 / 2) := by norm_num
      have e2 : ¬ ((1 : ℚ) / 2 < 1 - 1 / 2) := by norm_num
      rw [if_neg e1, if_neg e2, if_neg e0, if_neg e0]
      split <;> split <;> omega
    · rw [if_pos (by linarith), if_neg (by linarith), if_pos h]; omega

theorem two_zpow_pos (e : ℤ) : (0 : ℚ) < (2 : ℚ) ^ e := zpow_pos (by norm_num) e

theorem rnd_neg (p : ℕ) (emin : ℤ) (x : ℚ) : rnd p emin (-x) = -rnd p emin x := by
  unfold rnd
  have : ulpExp p emin (-x) = ulpExp p emin x := by unfold ulpExp; rw [abs_neg]
  rw [this, neg_div, rneInt_neg]
  push_cast; ring

theorem rnd_zero (p : ℕ) (emin : ℤ) : rnd p emin 0 = 0 := by
  unfold rnd
  rw [zero_div]
  have : rneInt 0 = 0 := by exact_mod_cast rneInt_int 0
  rw [this]; simp

theorem rnd_half_ulp (p : ℕ) (emin : ℤ) (x : ℚ) :
    |rnd p emin x - x| ≤ (2 : ℚ) ^ ulpExp p emin x / 2 := by
  unfold rnd
  generalize ulpExp p emin x = e
  have hp := two_zpow_pos e
  have h := rneInt_err (x / (2 : ℚ) ^ e)
  have e1 : (rneInt (x / (2 : ℚ) ^ e) : ℚ) * (2 : ℚ) ^ e - x
      = ((rneInt (x / (2 : ℚ) ^ e) : ℚ) - x / (2 : ℚ) ^ e) * (2 : ℚ) ^ e := by
    field_simp
  rw [e1, abs_mul, abs_of_pos hp]
  calc _ ≤ 1 / 2 * (2 : ℚ) ^ e := by gcongr
    _ = _ := by ring

theorem rnd_err (p : ℕ) (emin : ℤ) (x : ℚ) :
    |rnd p emin x - x| ≤ max (|x| / 2 ^ p) ((2 : ℚ) ^ emin / 2) := by
  rcases eq_or_ne x 0 with hx | hx
  · subst hx
    rw [rnd_zero, sub_zero, abs_zero]
    exact le_max_of_le_left (by positivity)
  refine le_trans (rnd_half_ulp p emin x) ?_
  unfold ulpExp
  rcases le_total (Int.log 2 |x| - (p - 1)) emin with h | h
  · rw [max_eq_right h]; exact le_max_right _ _
  · rw [max_eq_left h]
    refine le_trans ?_ (le_max_left _ _)
    have hx' : 0 < |x| := abs_pos.mpr hx
    have hl := Int.zpow_log_le_self (b := 2) (by norm_num) hx'
    have : (2 : ℚ) ^ (Int.log 2 |x| - ((p : ℤ) - 1)) / 2 = (2 : ℚ) ^ (Int.log 2 |x|) / 2 ^ p := by
      rw [zpow_sub₀ (by norm_num), zpow_sub₀ (by norm_num)]
      simp only [zpow_natCast, zpow_one]
      field_simp
    rw [this]
    push_cast at hl
    gcongr

/-- A multiple of the unit in the last place is never closer than the rounded value. -/
theorem rnd_nearest_mul (p : ℕ) (emin : ℤ) (x : ℚ) (k : ℤ) :
    |rnd p emin x - x| ≤ |k * (2 : ℚ) ^ ulpExp p emin x - x| := by
  unfold rnd
  generalize ulpExp p emin x = e
  have hp := two_zpow_pos e
  have h := rneInt_nearest (x / (2 : ℚ) ^ e) k
  have e1 : ∀ j : ℤ, (j : ℚ) * (2 : ℚ) ^ e - x = ((j : ℚ) - x / (2 : ℚ) ^ e) * (2 : ℚ) ^ e := by
    intro j; field_simp
  rw [e1, e1, abs_mul, abs_mul]
  gcongr

theorem rep_mul {m e e' : ℤ} (h : e' ≤ e) :
    ((m : ℚ) * (2 : ℚ) ^ e) = ((m * 2 ^ (e - e').toNat : ℤ) : ℚ) * (2 : ℚ) ^ e' := by
  push_cast
  have : (2 : ℚ) ^ e = (2 : ℚ) ^ (e - e').toNat * (2 : ℚ) ^ e' := by
    rw [← zpow_natCast, ← zpow_add₀ (by norm_num)]
    congr 1; omega
  rw [this]; ring

/-- The rounded value is at least as close as every number of the format (for positive `x`). -/
theorem rnd_nearest_pos {p : ℕ} (hp : 0 < p) {emin : ℤ} {x r : ℚ} (hx : 0 < x) (hr : Rep p emin r) :
    |rnd p emin x - x| ≤ |r - x| := by
  obtain ⟨m, e, hm, he, rfl⟩ := hr
  rcases le_total (ulpExp p emin x) e with h | h
  · rw [rep_mul h]; exact rnd_nearest_mul p emin x _
  · rcases eq_or_lt_of_le h with h | h
    · rw [h]; exact rnd_nearest_mul p emin x _
    · -- the unit in the last place is not at the bottom of the format
      have hl : ulpExp p emin x = Int.log 2 |x| - (p - 1) := by
        unfold ulpExp at h ⊢
        rcases le_total (Int.log 2 |x| - (p - 1)) emin with h' | h'
        · rw [max_eq_right h'] at h; omega
        · rw [max_eq_left h']
      have hpow := Int.zpow_log_le_self (b := 2) (by norm_num) (abs_pos.mpr hx.ne')
      rw [abs_of_pos hx] at hpow hl
      push_cast at hpow
      have hb := rnd_nearest_mul p emin x (2 ^ (p - 1))
      have e1 : (((2 : ℤ) ^ (p - 1) : ℤ) : ℚ) * (2 : ℚ) ^ ulpExp p emin x = (2 : ℚ) ^ Int.log 2 x := by
        push_cast
        rw [hl, ← zpow_natCast, ← zpow_add₀ (by norm_num)]
        congr 1; omega
      rw [e1] at hb
      have e2 : (m : ℚ) * (2 : ℚ) ^ e ≤ (2 : ℚ) ^ Int.log 2 x := by
        have hm' : (m : ℚ) ≤ 2 ^ p := by exact_mod_cast (le_abs_self m).trans hm
        calc (m : ℚ) * (2 : ℚ) ^ e ≤ 2 ^ p * (2 : ℚ) ^ e := by
              have := two_zpow_pos e; gcongr
          _ = (2 : ℚ) ^ ((p : ℤ) + e) := by rw [zpow_add₀ (by norm_num), zpow_natCast]
          _ ≤ _ := by apply zpow_le_zpow_right₀ (by norm_num); omega
      refine hb.trans ?_
      rw [abs_of_nonpos (by linarith), abs_of_nonpos (by linarith)]
      linarith

theorem rep_neg {p : ℕ} {emin : ℤ} {x : ℚ} (h : Rep p emin x) : Rep p emin (-x) := by
  obtain ⟨m, e, hm, he, rfl⟩ := h
  exact ⟨-m, e, by rwa [abs_neg], he, by push_cast; ring⟩

theorem rnd_nearest {p : ℕ} (hp : 0 < p) {emin : ℤ} (x : ℚ) {r : ℚ} (hr : Rep p emin r) :
    |rnd p emin x - x| ≤ |r - x| := by
  rcases lt_trichotomy x 0 with h | h | h
  · have := rnd_nearest_pos hp (x := -x) (by linarith) (rep_neg hr)
    rw [rnd_neg, ← abs_neg, ← abs_neg (-r - -x)] at this
    simpa [sub_eq_add_neg, add_comm] using this
  · subst h; rw [rnd_zero]; simp
  · exact rnd_nearest_pos hp h hr

theorem rnd_fix {p : ℕ} (hp : 0 < p) {emin : ℤ} {x : ℚ} (h : Rep p emin x) : rnd p emin x = x := by
  have := rnd_nearest hp x h
  rw [sub_self, abs_zero] at this
  linarith [abs_eq_zero.mp (le_antisymm this (abs_nonneg _))]

theorem rnd_rep (p : ℕ) (emin : ℤ) (x : ℚ) : Rep p emin (rnd p emin x) := by
  refine ⟨rneInt (x / (2 : ℚ) ^ ulpExp p emin x), ulpExp p emin x, ?_, le_max_right _ _, rfl⟩
  have hu := two_zpow_pos (ulpExp p emin x)
  -- |x| / ulp < 2^p
  have hlt : |x / (2 : ℚ) ^ ulpExp p emin x| ≤ 2 ^ p := by
    rw [abs_div, abs_of_pos hu, div_le_iff₀ hu]
    rcases eq_or_ne x 0 with h0 | h0
    · subst h0; rw [abs_zero]; positivity
    have h1 := Int.lt_zpow_succ_log_self (b := 2) (by norm_num) |x|
    push_cast at h1
    refine h1.le.trans ?_
    rw [← zpow_natCast, ← zpow_add₀ (by norm_num)]
    apply zpow_le_zpow_right₀ (by norm_num)
    have : Int.log 2 |x| - (p - 1) ≤ ulpExp p emin x := le_max_left _ _
    omega
  generalize x / (2 : ℚ) ^ ulpExp p emin x = y at *
  rw [abs_le] at hlt ⊢
  have hmono : ∀ k : ℤ, ((k : ℚ) ≤ y → k ≤ rneInt y) ∧ (y ≤ k → rneInt y ≤ k) := by
    intro k
    have := rneInt_nearest y k
    have herr := rneInt_err y
    rw [abs_le] at herr
    constructor
    · intro hk
      by_contra hc
      push Not at hc
      have hc' : (rneInt y : ℚ) + 1 ≤ k := by exact_mod_cast hc
      rw [abs_of_nonpos (by linarith), abs_of_nonpos (by linarith)] at this
      linarith
    · intro hk
      by_contra hc
      push Not at hc
      have hc' : (k : ℚ) + 1 ≤ rneInt y := by exact_mod_cast hc
      rw [abs_of_nonneg (by linarith), abs_of_nonneg (by linarith)] at this
      linarith
  constructor
  · exact (hmono (-2 ^ p)).1 (by push_cast; exact hlt.1)
  · exact (hmono (2 ^ p)).2 (by push_cast; exact hlt.2)

theorem rnd_mono {p : ℕ} (hp : 0 < p) (emin : ℤ) {x y : ℚ} (h : x ≤ y) : rnd p emin x ≤ rnd p emin y := by
  have hx := rnd_rep p emin x
  have hy := rnd_rep p emin y
  have nx := rnd_nearest hp x hy
  have ny := rnd_nearest hp y hx
  by_contra hc
  push Not at hc
  have hxy : x < y := lt_of_le_of_ne h (fun e => by rw [e] at hc; exact lt_irrefl _ hc)
  generalize rnd p emin x = a at *
  generalize rnd p emin y = b at *
  rcases abs_cases (a - x) with ⟨e1, f1⟩ | ⟨e1, f1⟩ <;> rcases abs_cases (b - x) with ⟨e2, f2⟩ | ⟨e2, f2⟩ <;>
  rcases abs_cases (b - y) with ⟨e3, f3⟩ | ⟨e3, f3⟩ <;> rcases abs_cases (a - y) with ⟨e4, f4⟩ | ⟨e4, f4⟩ <;>
  linarith

theorem rnd_lawful (p : ℕ) (hp : 0 < p) (emin : ℤ) : Lawful p emin (rnd p emin) where
  rep := rnd_rep p emin
  fix := fun _ h => rnd_fix hp h
  mono := fun _ _ h => rnd_mono hp emin h
  neg := rnd_neg p emin
  nearest := fun x _ h => rnd_nearest hp x h
  err := rnd_err p emin

/-- IEEE-754 binary32 rounding is lawful. -/
theorem fl32_lawful : Lawful 24 (-149) fl32 := rnd_lawful 24 (by norm_num) _
/-- IEEE-754 binary64 rounding is lawful. -/
theorem fl64_lawful : Lawful 53 (-1074) fl64 := rnd_lawful 53 (by norm_num) _

namespace Lawful
variable {p : ℕ} {emin : ℤ} {fl : ℚ → ℚ} (L : Lawful p emin fl)
include L

theorem idem (x : ℚ) : fl (fl x) = fl x := L.fix _ (L.rep x)
theorem zero : fl 0 = 0 := L.fix 0 ⟨0, emin, by simp, le_rfl, by simp⟩
theorem nonneg {x : ℚ} (h : 0 ≤ x) : 0 ≤ fl x := by rw [← L.zero]; exact L.mono _ _ h
theorem nonpos {x : ℚ} (h : x ≤ 0) : fl x ≤ 0 := by
  have := L.mono _ _ h; rwa [L.zero] at this
theorem le_of_rep {x r : ℚ} (hr : Rep p emin r) (h : x ≤ r) : fl x ≤ r := by
  rw [← L.fix r hr]; exact L.mono _ _ h
theorem ge_of_rep {x r : ℚ} (hr : Rep p emin r) (h : r ≤ x) : r ≤ fl x := by
  have := L.mono _ _ h; rwa [L.fix r hr] at this
theorem abs_le_of_rep {x r : ℚ} (hr : Rep p emin r) (h : |x| ≤ r) : |fl x| ≤ r := by
  rw [abs_le] at h ⊢
  exact ⟨L.ge_of_rep (rep_neg hr) h.1, L.le_of_rep hr h.2⟩
end Lawful

theorem rep_int {p : ℕ} {emin : ℤ} (h0 : emin ≤ 0) {m : ℤ} (h : |m| ≤ 2 ^ p) : Rep p emin m :=
  ⟨m, 0, h, h0, by simp⟩

theorem rep_zpow {p : ℕ} {emin e : ℤ} (h0 : emin ≤ e) : Rep p emin ((2 : ℚ) ^ e) :=
  ⟨1, e, by simpa using one_le_pow₀ (by norm_num), h0, by simp⟩

end Rounding
end Verif
