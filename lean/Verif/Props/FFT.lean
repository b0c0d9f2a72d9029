import Verif.Proof.FFTSin
/-!
# C62: the FFT computes the discrete Fourier transform

The specification: the `p`-th output is `Σ x_n e^{-2πi p n/N}`, where the real and imaginary parts of `x_n` are the array
elements `2n` and `2n+1`.
-/
namespace Verif
open FFT Rounding

/-- The discrete Fourier transform of the `N` complex samples stored in an array. -/
noncomputable def dft (N : ℕ) (d : ℕ → ℝ) (p : ℕ) : ℂ :=
  ∑ n ∈ Finset.range N, (⟨d (2 * n), d (2 * n + 1)⟩ : ℂ) * Complex.exp (-2 * Real.pi * Complex.I * p * n / N)

theorem D_eq_dft (k : ℕ) (d : ℕ → ℝ) (p : ℕ) (h : p < 2 ^ k) :
    D k (fun n => (⟨d (2 * n), d (2 * n + 1)⟩ : ℂ)) p = dft (2 ^ k) d p := by
  rw [D_dft k _ p h, dft]
  apply Finset.sum_congr rfl
  intro n _
  rw [om, ← Complex.exp_nat_mul]
  congr 2
  push_cast
  ring

/-- **C62.** In exact arithmetic, with exact sines, `fft<2^k>` leaves in elements `2p` and `2p+1` the real and imaginary
parts of the `p`-th value of the discrete Fourier transform of the array, for every `k` and every array. -/
theorem C62_fft_exact (k : ℕ) (d : ℕ → ℝ) (p : ℕ) (h : p < 2 ^ k) :
    (⟨fftWith id (fun B A => Real.sin (A * Real.pi / B)) k d (2 * p),
      fftWith id (fun B A => Real.sin (A * Real.pi / B)) k d (2 * p + 1)⟩ : ℂ) = dft (2 ^ k) d p := by
  rw [← D_eq_dft k d p h]
  have h1 := congrArg cx (fft_z id exactSin k d p h)
  rw [T_exact k _ p h] at h1
  simp only [z, cx, zero_add] at h1
  exact h1

/-- **C62.** The transform touches only the `2 N` elements of the array, whatever the rounding and the sines. -/
theorem C62_fft_frame {K : Type*} [Field K] (r : K → K) (sn : ℕ → ℕ → K) (k : ℕ) (d : ℕ → K) (a : ℕ)
    (h : 2 * 2 ^ k ≤ a) : fftWith r sn k d a = d a := by
  rw [fftWith, apply_out r sn k 0 _ a (Or.inr (by omega)), scramble_out k d a h]

/-- **C62.** The result depends only on the `2 N` elements of the array: nothing outside is read. -/
theorem C62_fft_reads {K : Type*} [Field K] (r : K → K) (sn : ℕ → ℕ → K) (k : ℕ) (d d' : ℕ → K)
    (h : ∀ a, a < 2 * 2 ^ k → d a = d' a) (a : ℕ) (ha : a < 2 * 2 ^ k) : fftWith r sn k d a = fftWith r sn k d' a := by
  have hp : a / 2 < 2 ^ k := by omega
  have h1 : z (fftWith r sn k d) 0 (a / 2) = z (fftWith r sn k d') 0 (a / 2) := by
    rw [fft_z r sn k d _ hp, fft_z r sn k d' _ hp]
    apply T_congr
    intro n hn
    unfold z
    rw [h _ (by omega), h _ (by omega)]
  unfold z at h1
  rcases Nat.mod_two_eq_zero_or_one a with h2 | h2
  · have h3 := congrArg Prod.fst h1
    rwa [show 0 + 2 * (a / 2) = a by omega] at h3
  · have h3 := congrArg Prod.snd h1
    rwa [show 0 + 2 * (a / 2) + 1 = a by omega] at h3

/-- **C62.** At the start of each of the `N` iterations of the reordering loop the index `j` is odd and below `2 N`: the
accesses `j-1`, `j` are inside the array, and `int` arithmetic does not overflow when `2 N` is an `int`. -/
theorem C62_scramble_indices (k c : ℕ) (h : c < 2 ^ k) :
    jAt (2 ^ k) c % 2 = 1 ∧ jAt (2 ^ k) c < 2 * 2 ^ k := by
  have := rev_lt k c
  rw [jAt_eq k c h]
  omega

/-- Reordering twice restores the array. -/
theorem C62_scramble_involution {K : Type*} [Field K] (k : ℕ) (d : ℕ → K) : scramble (2 ^ k) (scramble (2 ^ k) d) = d := by
  funext a
  by_cases h : a < 2 * 2 ^ k
  · have hp : a / 2 < 2 ^ k := by omega
    have h1 : z (scramble (2 ^ k) (scramble (2 ^ k) d)) 0 (a / 2) = z d 0 (a / 2) := by
      rw [scramble_z k _ _ hp, scramble_z k _ _ (rev_lt k _), rev_rev k _ hp]
    unfold z at h1
    rcases Nat.mod_two_eq_zero_or_one a with h2 | h2
    · have h3 := congrArg Prod.fst h1
      rwa [show 0 + 2 * (a / 2) = a by omega] at h3
    · have h3 := congrArg Prod.snd h1
      rwa [show 0 + 2 * (a / 2) + 1 = a by omega] at h3
  · rw [scramble_out k _ a (by omega), scramble_out k _ a (by omega)]

/-- **C62.** In `double` arithmetic (every operation rounded to nearest, no overflow), with the sines the code computes at
compile time, `fft<N>` for `N = 2^k`, `1 ≤ k ≤ 30` is the discrete Fourier transform up to `N 2^-49` times the sum of the
magnitudes of the samples (and an underflow term below `2^-1000`), for every array and every bin. -/
theorem C62_fft_rounded (k : ℕ) (h1 : 1 ≤ k) (hk : k ≤ 30) (d : ℕ → ℚ) (p : ℕ) (h : p < 2 ^ k) :
    ‖(⟨((fft fl64 (fl64 piLiteral) k d (2 * p) : ℚ) : ℝ), ((fft fl64 (fl64 piLiteral) k d (2 * p + 1) : ℚ) : ℝ)⟩ : ℂ) -
        dft (2 ^ k) (fun a => (d a : ℝ)) p‖ ≤
      2 ^ k / 2 ^ 49 * ∑ n ∈ Finset.range (2 ^ k), ‖(⟨(d (2 * n) : ℝ), (d (2 * n + 1) : ℝ)⟩ : ℂ)‖ + 1 / 2 ^ 1000 := by
  rw [← D_eq_dft k _ p h]
  have h2 := fft64_err k h1 hk (fun n => z d 0 n) p h
  rw [← fft_z fl64 sn64 k d p h] at h2
  simp only [z, cq, zero_add] at h2
  exact h2

/-- **C62.** The sines computed at compile time are correct to four units in the last place, for every size. -/
theorem C62_sine (k a : ℕ) (hk3 : 3 ≤ k) (hk : k ≤ 30) (ha : a ≤ 1) :
    |((sinSeries fl64 (fl64 piLiteral) (2 ^ k) (2 ^ a) : ℚ) : ℝ) - Real.sin (2 ^ a * Real.pi / 2 ^ k)| ≤
      4 / 2 ^ 53 * (2 ^ a * Real.pi / 2 ^ k) := by
  refine (sn_err k a hk3 hk ha).trans ?_
  have hp : 0 ≤ 2 ^ a * Real.pi / 2 ^ k := by positivity
  apply mul_le_mul_of_nonneg_right _ hp
  unfold u
  norm_num

/-- A concrete case: `N = 1024`; all the values of the transform of the impulse at sample 1 have magnitude 1, and the computed
ones are within `2^-38` of it. -/
example (p : ℕ) (h : p < 1024) :
    ‖(⟨((fft fl64 (fl64 piLiteral) 10 (fun a => if a = 2 then 1 else 0) (2 * p) : ℚ) : ℝ),
      ((fft fl64 (fl64 piLiteral) 10 (fun a => if a = 2 then 1 else 0) (2 * p + 1) : ℚ) : ℝ)⟩ : ℂ) -
      Complex.exp (-2 * Real.pi * Complex.I * p * 1 / 1024)‖ ≤ 1 / 2 ^ 38 := by
  have h1 := C62_fft_rounded 10 (by norm_num) (by norm_num) (fun a => if a = 2 then 1 else 0) p (by norm_num; exact h)
  have hv : ∀ n : ℕ, (⟨(((fun a => if a = 2 then 1 else 0 : ℕ → ℚ) (2 * n) : ℚ) : ℝ),
      (((fun a => if a = 2 then 1 else 0 : ℕ → ℚ) (2 * n + 1) : ℚ) : ℝ)⟩ : ℂ) = if n = 1 then 1 else 0 := by
    intro n
    have e1 : (2 * n = 2) ↔ n = 1 := by omega
    have e2 : ¬ (2 * n + 1 = 2) := by omega
    by_cases hn : n = 1 <;> simp [hn, e1, e2] <;> rfl
  have hd : dft (2 ^ 10) (fun a => (((fun a => if a = 2 then 1 else 0 : ℕ → ℚ) a : ℚ) : ℝ)) p =
      Complex.exp (-2 * Real.pi * Complex.I * p * 1 / 1024) := by
    unfold dft
    simp only [hv, ite_mul, zero_mul, one_mul]
    rw [Finset.sum_ite_eq']
    norm_num
  rw [hd] at h1
  simp only [hv] at h1
  have hn : ∀ n : ℕ, ‖(if n = 1 then 1 else 0 : ℂ)‖ = if n = 1 then 1 else 0 := by
    intro n; split_ifs <;> simp
  simp only [hn] at h1
  rw [Finset.sum_ite_eq'] at h1
  refine h1.trans ?_
  have : (1 : ℝ) / 2 ^ 1000 ≤ 1 / 2 ^ 60 :=
    one_div_le_one_div_of_le (by positivity) (pow_le_pow_right₀ (by norm_num) (by norm_num))
  norm_num at this ⊢
  linarith

end Verif
