import Verif.Model.Rand
import Verif.Model.Signal
import Mathlib.SetTheory.Cardinal.Finite
import Mathlib.Tactic.Linarith
import Mathlib.Tactic.Ring
import Mathlib.Tactic.LinearCombination
import Mathlib.Data.Fintype.Card
import Mathlib.Data.ZMod.Basic
import Mathlib.Algebra.BigOperators.Intervals
import Mathlib.Algebra.BigOperators.Ring.Finset
/-!
# The random number generator (C65)
-/
namespace Verif

section
variable (a : ℕ)

/-- Sum of the first `n` powers of the multiplier. -/
private def gs (n : ℕ) : ℕ := ∑ i ∈ Finset.range n, a ^ i

private theorem gs_succ (n : ℕ) : gs a (n + 1) = a * gs a n + 1 := by
  unfold gs
  rw [Finset.sum_range_succ', Finset.mul_sum]
  simp only [pow_succ, pow_zero]
  congr 1
  exact Finset.sum_congr rfl fun i _ => by ring

private theorem gs_double (m : ℕ) : gs a (m + m) = (a ^ m + 1) * gs a m := by
  unfold gs
  rw [Finset.sum_range_add, add_mul, one_mul, add_comm, Finset.mul_sum, add_comm]
  simp only [pow_add]
  rw [add_comm]

private theorem gs_odd (ha : a % 2 = 1) (n : ℕ) : gs a n % 2 = n % 2 := by
  induction n with
  | zero => rfl
  | succ n ih => rw [gs_succ, Nat.add_mod, Nat.mul_mod, ha, one_mul, Nat.mod_mod, ih]; omega

private theorem pow_mod4 (ha : a % 4 = 1) (m : ℕ) : a ^ m % 4 = 1 := by
  rw [Nat.pow_mod, ha]; simp

/-- `2 ^ k` divides the sum of `n` powers exactly when it divides `n`. -/
private theorem gs_dvd (ha : a % 4 = 1) (k n : ℕ) : 2 ^ k ∣ gs a n ↔ 2 ^ k ∣ n := by
  induction k generalizing n with
  | zero => simp
  | succ k ih =>
    rcases Nat.even_or_odd n with ⟨m, rfl⟩ | ho
    · rw [gs_double]
      obtain ⟨q, hq⟩ : ∃ q, a ^ m + 1 = 2 * (2 * q + 1) := by
        have := pow_mod4 a ha m
        generalize a ^ m = z at *
        exact ⟨(z - 1) / 4, by omega⟩
      have hco : Nat.Coprime (2 ^ k) (2 * q + 1) := Nat.Coprime.pow_left k (by
        rw [Nat.coprime_comm]; simp)
      rw [hq, mul_assoc, pow_succ', Nat.mul_dvd_mul_iff_left (by norm_num), hco.dvd_mul_left, ih, ← two_mul,
        Nat.mul_dvd_mul_iff_left (by norm_num)]
    · have h1 := gs_odd a (by omega) n
      have h2 := Nat.odd_iff.1 ho
      constructor <;> intro h <;> exfalso
      · have : 2 ∣ gs a n := (Dvd.intro_left (2 ^ k) (by rw [pow_succ])).trans h
        omega
      · have : 2 ∣ n := (Dvd.intro_left (2 ^ k) (by rw [pow_succ])).trans h
        omega

private theorem iter (c n : ℕ) (s : BitVec 32) :
    (fun s => BitVec.ofNat 32 a * s + BitVec.ofNat 32 c)^[n] s = BitVec.ofNat 32 (a ^ n * s.toNat + gs a n * c) := by
  induction n with
  | zero => simp [gs]
  | succ n ih =>
    rw [Function.iterate_succ_apply', ih, gs_succ]
    apply BitVec.eq_of_toNat_eq
    simp only [BitVec.toNat_add, BitVec.toNat_mul, BitVec.toNat_ofNat]
    rw [show a ^ (n + 1) * s.toNat + (a * gs a n + 1) * c = a * (a ^ n * s.toNat + gs a n * c) + c by ring]
    generalize a ^ n * s.toNat + gs a n * c = z
    rw [← Nat.mul_mod, ← Nat.add_mod]

private theorem gs_geom (ha : 1 ≤ a) (n : ℕ) : (a - 1) * gs a n + 1 = a ^ n := by
  induction n with
  | zero => simp [gs]
  | succ n ih =>
    rw [gs_succ, pow_succ, ← ih]
    obtain ⟨b, rfl⟩ : ∃ b, a = b + 1 := ⟨a - 1, by omega⟩
    simp only [Nat.add_sub_cancel]
    ring

/-- The period of a linear congruential generator modulo `2^32` with a multiplier of the form `4 k + 1` and an odd increment. -/
private theorem lcg (ha : a % 4 = 1) (c : ℕ) (hc : c % 2 = 1) (s : BitVec 32) (n : ℕ) :
    (fun s => BitVec.ofNat 32 a * s + BitVec.ofNat 32 c)^[n] s = s ↔ 2 ^ 32 ∣ n := by
  rw [iter, ← gs_dvd a ha]
  have hs := s.isLt
  have ha1 : 1 ≤ a := by omega
  have e : a ^ n * s.toNat + gs a n * c = s.toNat + gs a n * ((a - 1) * s.toNat + c) := by
    rw [← gs_geom a ha1]; ring
  have hco : Nat.Coprime (2 ^ 32) ((a - 1) * s.toNat + c) := Nat.Coprime.pow_left 32 (by
    rw [Nat.coprime_two_left, Nat.odd_iff, Nat.add_mod, Nat.mul_mod]
    have : (a - 1) % 2 = 0 := by omega
    rw [this, zero_mul]; omega)
  rw [e]
  constructor
  · intro h
    have h' := congrArg BitVec.toNat h
    rw [BitVec.toNat_ofNat] at h'
    refine (hco.dvd_mul_right).1 ?_
    generalize gs a n * ((a - 1) * s.toNat + c) = z at h'
    omega
  · intro h
    apply BitVec.eq_of_toNat_eq
    rw [BitVec.toNat_ofNat]
    obtain ⟨d, hd⟩ := h
    rw [hd, mul_assoc, Nat.add_mul_mod_self_left, Nat.mod_eq_of_lt hs]
end

/-- **C65.** From every seed, the generator returns to that seed after exactly `2^32` calls and not before: the period is
`2^32`, the largest possible. -/
theorem C65_full_period (seed : BitVec 32) (n : ℕ) : randNext^[n] seed = seed ↔ 2 ^ 32 ∣ n :=
  lcg 214013 (by norm_num) 2531011 (by norm_num) seed n

/-- **C65.** Every result lies between 0 and 32767. -/
theorem C65_range (seed : BitVec 32) : (fastRand seed).2.toNat ≤ 32767 := by
  simp only [fastRand, BitVec.toNat_and]
  exact Nat.and_le_right

/-- The seed after `n` calls. -/
theorem rand_state (seed : BitVec 32) (n : ℕ) :
    stateAt (fun s (_ : Unit) => fastRand s) seed (fun _ => ()) n = randNext^[n] seed := by
  induction n with
  | zero => rfl
  | succ n ih => rw [stateAt, ih, Function.iterate_succ_apply']; rfl

private theorem orbit_inj (seed : BitVec 32) : Function.Injective (fun n : Fin (2 ^ 32) => randNext^[(n : ℕ) + 1] seed) := by
  have aux : ∀ a b : ℕ, a ≤ b → b < 2 ^ 32 → randNext^[a + 1] seed = randNext^[b + 1] seed → a = b := by
    intro a b hab hb h
    have e : b + 1 = (b - a) + (a + 1) := by omega
    rw [e, Function.iterate_add_apply randNext (b - a) (a + 1)] at h
    have := (C65_full_period _ (b - a)).1 h.symm
    have := Nat.eq_zero_of_dvd_of_lt this (by omega)
    omega
  intro a b h
  rcases le_total (a : ℕ) b with hab | hab
  · exact Fin.ext (aux a b hab b.isLt h)
  · exact Fin.ext (aux b a hab a.isLt h.symm).symm

/-- The seeds that give a certain result, by their highest bit and their lower half. -/
private def fibre (v : ℕ) (hv : v ≤ 32767) :
    {s : BitVec 32 // s.toNat / 2 ^ 16 % 2 ^ 15 = v} ≃ Fin 2 × Fin (2 ^ 16) where
  toFun s := (⟨s.1.toNat / 2 ^ 31, by have := s.1.isLt; omega⟩, ⟨s.1.toNat % 2 ^ 16, by omega⟩)
  invFun p := ⟨BitVec.ofNat 32 (p.1.1 * 2 ^ 31 + v * 2 ^ 16 + p.2.1), by
    have := p.1.isLt; have := p.2.isLt
    rw [BitVec.toNat_ofNat]; omega⟩
  left_inv s := by
    have := s.1.isLt
    have h := s.2
    apply Subtype.ext
    apply BitVec.eq_of_toNat_eq
    simp only [BitVec.toNat_ofNat]
    omega
  right_inv p := by
    have := p.1.isLt; have := p.2.isLt
    apply Prod.ext <;> apply Fin.ext <;> simp only [BitVec.toNat_ofNat] <;> omega

/-- **C65.** In every run of `2^32` consecutive calls, from every seed, every value from 0 to 32767 is returned equally
often: `2^17` times. -/
theorem C65_uniform (seed : BitVec 32) (v : ℕ) (hv : v ≤ 32767) :
    Nat.card {n : Fin (2 ^ 32) //
      (outAt (fun s (_ : Unit) => fastRand s) seed (fun _ => ()) (n : ℕ)).toNat = v} = 2 ^ 17 := by
  have hout : ∀ n : ℕ, (outAt (fun s (_ : Unit) => fastRand s) seed (fun _ => ()) n).toNat
      = (randNext^[n + 1] seed).toNat / 2 ^ 16 % 2 ^ 15 := by
    intro n
    rw [outAt, rand_state, Function.iterate_succ_apply']
    simp only [fastRand, BitVec.toNat_and, BitVec.toNat_ushiftRight]
    rw [show (0x7FFF#32).toNat = 2 ^ 15 - 1 from rfl, Nat.and_two_pow_sub_one_eq_mod, Nat.shiftRight_eq_div_pow]
  have hbij : Function.Bijective (fun n : Fin (2 ^ 32) => randNext^[(n : ℕ) + 1] seed) := by
    have hi := orbit_inj seed
    refine ⟨hi, ?_⟩
    have e : Fin (2 ^ 32) ≃ BitVec 32 := ⟨BitVec.ofFin, BitVec.toFin, fun _ => rfl, fun _ => rfl⟩
    exact (hi.surjective_of_finite e.symm.symm)
  have e1 : {n : Fin (2 ^ 32) // (outAt (fun s (_ : Unit) => fastRand s) seed (fun _ => ()) (n : ℕ)).toNat = v}
      ≃ {s : BitVec 32 // s.toNat / 2 ^ 16 % 2 ^ 15 = v} :=
    (Equiv.ofBijective _ hbij).subtypeEquiv fun n => by rw [hout]; rfl
  rw [Nat.card_congr (e1.trans (fibre v hv)), Nat.card_prod, Nat.card_fin, Nat.card_fin]
  norm_num

/-- A non-trivial case: the first results after program start. -/
example : outputs (fun s (_ : Unit) => fastRand s) randSeed [(), (), ()] = [16611, 15149, 28021] := by decide +kernel

end Verif
