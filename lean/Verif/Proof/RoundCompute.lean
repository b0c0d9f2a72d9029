import Mathlib.Tactic.Linarith
import Mathlib.Tactic.Positivity
import Mathlib.Tactic.NormNum
import Mathlib.Tactic.FieldSimp
import Verif.Model.Float32
import Verif.Proof.Rounding
/-!
# Rounding that the kernel can evaluate

`rndc` is a definition of `rnd` by integer operations; it is equal to it.  With it, runs of the detectors in single precision can be evaluated by the kernel.
-/
namespace Verif
namespace Rounding

/-- `2^e`. -/
def p2 (e : Int) : ℚ := if 0 ≤ e then ((2 ^ e.toNat : Nat) : ℚ) else 1 / ((2 ^ (-e).toNat : Nat) : ℚ)

theorem p2_eq (e : Int) : p2 e = (2 : ℚ) ^ e := by
  unfold p2
  split
  · rename_i h
    obtain ⟨n, rfl⟩ := Int.eq_ofNat_of_zero_le h
    push_cast; simp
  · rename_i h
    obtain ⟨n, hn⟩ := Int.eq_ofNat_of_zero_le (a := -e) (by omega)
    have : e = -(n : Int) := by omega
    subst this
    simp

/-- The binary logarithm of a positive number, rounded down, from the lengths of numerator and denominator. -/
def lg (x : ℚ) : Int :=
  let e : Int := (Nat.log2 x.num.natAbs : Int) - Nat.log2 x.den
  if p2 e ≤ x then e else e - 1

theorem lg_eq {x : ℚ} (hx : 0 < x) : lg x = Int.log 2 x := by
  have hn : x.num.natAbs ≠ 0 := by
    have := Rat.num_pos.2 hx; omega
  have hd : x.den ≠ 0 := x.den_nz
  have h1 := Nat.log2_self_le hn
  have h2 := Nat.lt_log2_self (n := x.num.natAbs)
  have h3 := Nat.log2_self_le hd
  have h4 := Nat.lt_log2_self (n := x.den)
  have hxe : x = (x.num.natAbs : ℚ) / x.den := by
    have : ((x.num.natAbs : Int) : ℚ) = x.num := by
      have : (x.num.natAbs : Int) = x.num := by have := Rat.num_pos.2 hx; omega
      rw [this]
    rw [Int.cast_natCast] at this
    rw [this]; exact (Rat.num_div_den x).symm
  unfold lg
  simp only []
  rw [p2_eq]
  generalize hea : Nat.log2 x.num.natAbs = a at *
  generalize heb : Nat.log2 x.den = b at *
  generalize x.num.natAbs = n at *
  generalize x.den = d at *
  have hd0 : (0 : ℚ) < d := by exact_mod_cast Nat.pos_of_ne_zero hd
  have q1 : (2 : ℚ) ^ a ≤ n := by exact_mod_cast h1
  have q2 : (n : ℚ) < 2 ^ (a + 1) := by exact_mod_cast h2
  have q3 : (2 : ℚ) ^ b ≤ d := by exact_mod_cast h3
  have q4 : (d : ℚ) < 2 ^ (b + 1) := by exact_mod_cast h4
  have lo : (2 : ℚ) ^ ((a : Int) - b - 1) ≤ x := by
    rw [hxe, le_div_iff₀ hd0]
    have e : (2 : ℚ) ^ ((a : Int) - b - 1) * 2 ^ (b + 1) = 2 ^ a := by
      rw [← zpow_natCast, ← zpow_natCast, ← zpow_add₀ (by norm_num)]
      congr 1; push_cast; ring
    have : (2 : ℚ) ^ ((a : Int) - b - 1) * d ≤ (2 : ℚ) ^ ((a : Int) - b - 1) * 2 ^ (b + 1) :=
      mul_le_mul_of_nonneg_left q4.le (by positivity)
    linarith
  have hi : x < (2 : ℚ) ^ ((a : Int) - b + 1) := by
    rw [hxe, div_lt_iff₀ hd0]
    have e : (2 : ℚ) ^ ((a : Int) - b + 1) * 2 ^ b = 2 ^ (a + 1) := by
      rw [← zpow_natCast, ← zpow_natCast, ← zpow_add₀ (by norm_num)]
      congr 1; push_cast; ring
    have : (2 : ℚ) ^ ((a : Int) - b + 1) * 2 ^ b ≤ (2 : ℚ) ^ ((a : Int) - b + 1) * d :=
      mul_le_mul_of_nonneg_left q3 (by positivity)
    linarith
  have t1 : ∀ e : Int, (2 : ℚ) ^ e ≤ x ↔ e ≤ Int.log 2 x := fun e => by
    have := Int.zpow_le_iff_le_log (R := ℚ) (b := 2) (by norm_num) (x := e) hx
    exact_mod_cast this
  have g1 := (t1 _).1 lo
  have g2 : ¬ (a : Int) - b + 1 ≤ Int.log 2 x := fun h => absurd ((t1 _).2 h) (not_le.2 hi)
  split
  · rename_i h
    have := (t1 _).1 h
    omega
  · rename_i h
    have : ¬ (a : Int) - b ≤ Int.log 2 x := fun h' => h ((t1 _).2 h')
    omega

/-- `rneInt` on numerator and denominator. -/
def rneC (y : ℚ) : Int :=
  let f := y.num / y.den
  let r := 2 * (y.num % y.den)
  if r < y.den then f else if (y.den : Int) < r then f + 1 else if f % 2 = 0 then f else f + 1

theorem rneC_eq (y : ℚ) : rneC y = rneInt y := by
  have hf : y.num / y.den = ⌊y⌋ := Rat.floor_def'.symm
  have hd : (0 : ℚ) < y.den := by exact_mod_cast y.den_pos
  have hy : y = (y.num : ℚ) / y.den := (Rat.num_div_den y).symm
  have hm : ((y.num % y.den : Int) : ℚ) = (y - ⌊y⌋) * y.den := by
    have e := Int.mul_ediv_add_emod y.num y.den
    rw [hf] at e
    have e' : (y.den : ℚ) * (⌊y⌋ : ℚ) + ((y.num % y.den : Int) : ℚ) = y.num := by exact_mod_cast e
    have : (y.num : ℚ) = y * y.den := (eq_div_iff hd.ne').1 hy |>.symm
    rw [this] at e'
    linarith
  have c1 : 2 * (y.num % y.den) < y.den ↔ y - ⌊y⌋ < 1 / 2 := by
    rw [← Int.cast_lt (R := ℚ)]
    push_cast
    rw [hm]
    constructor
    · intro h; by_contra hc; push Not at hc; nlinarith
    · intro h; nlinarith
  have c2 : (y.den : Int) < 2 * (y.num % y.den) ↔ 1 / 2 < y - ⌊y⌋ := by
    rw [← Int.cast_lt (R := ℚ)]
    push_cast
    rw [hm]
    constructor
    · intro h; by_contra hc; push Not at hc; nlinarith
    · intro h; nlinarith
  unfold rneC rneInt
  simp only [hf]
  by_cases h1 : y - ⌊y⌋ < 1 / 2
  · rw [if_pos h1, if_pos (c1.2 h1)]
  · rw [if_neg h1, if_neg (fun h => h1 (c1.1 h))]
    by_cases h2 : 1 / 2 < y - ⌊y⌋
    · rw [if_pos h2, if_pos (c2.2 h2)]
    · rw [if_neg h2, if_neg (fun h => h2 (c2.1 h))]

/-- `rnd` by integer operations. -/
def rndc (p : Nat) (emin : Int) (x : ℚ) : ℚ :=
  if x = 0 then 0 else
    let e := max (lg |x| - (p - 1)) emin
    rneC (x * p2 (-e)) * p2 e

theorem rndc_eq (p : Nat) (emin : Int) : rndc p emin = rnd p emin := by
  funext x
  unfold rndc
  split
  · rename_i h; rw [h, rnd_zero]
  · rename_i h
    simp only []
    rw [lg_eq (abs_pos.2 h), p2_eq, p2_eq, rneC_eq, rnd, ulpExp, zpow_neg, div_eq_mul_inv]

end Rounding

open Rounding

/-- The instance of `F32` with the computable rounding. -/
@[reducible] def f32c : FloatOps F32 where
  lit := fun q => ⟨rndc 24 (-149) q⟩
  ofInt := fun i => ⟨rndc 24 (-149) i⟩
  add := fun a b => ⟨rndc 24 (-149) (a.val + b.val)⟩
  sub := fun a b => ⟨rndc 24 (-149) (a.val - b.val)⟩
  mul := fun a b => ⟨rndc 24 (-149) (a.val * b.val)⟩
  div := fun a b => ⟨rndc 24 (-149) (a.val / b.val)⟩
  neg := fun a => ⟨-a.val⟩
  lt := fun a b => decide (a.val < b.val)
  le := fun a b => decide (a.val ≤ b.val)
  eq := fun a b => decide (a.val = b.val)
  round := fun a => ⟨FloatOps.round a.val⟩
  trunc := fun a => FloatOps.trunc a.val

/-- It is the instance. -/
theorem f32c_eq : (inferInstance : FloatOps F32) = f32c := by
  unfold f32c
  rw [rndc_eq]
  rfl

end Verif
