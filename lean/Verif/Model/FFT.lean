import Mathlib.Algebra.Field.Defs
import Mathlib.Algebra.Field.Rat
import Mathlib.Tactic.Ring
/-!
# Fast Fourier transform: `q/fft/fft.hpp`

The array `double* data` is a memory `ℕ → K`; `off` is the offset of the pointer a function receives.  `r` is the rounding
applied to the result of every arithmetic operation: `r = id` over the reals is exact arithmetic, `r = fl64` over the
rationals is `double` arithmetic (without overflow, and without contraction to fused multiply-add).  `N` is the number of
complex samples; the array has `2 N` elements.  `N = 2^k`, `k ≥ 1`: for other `N` the templates do not instantiate.
-/
namespace Verif
namespace FFT

variable {K : Type*} [Field K] (r : K → K)

/-- `data[i] = v`. -/
def put (m : ℕ → K) (i : ℕ) (v : K) : ℕ → K := fun j => if j = i then v else m j

/-- The argument `A*pi/B` (fft.hpp 34, 39); the conversions of `A` and `B` to `double` are exact. -/
def angle (pi : K) (B A : ℕ) : K := r (r (A * pi) / B)

/-- `sin_cos_series(M, N, B, A)` with `x = A*pi/B` (fft.hpp 31-35).  The recursion runs from `M` in steps of two until
`M == N`; the first argument is the number of remaining steps `(N - M)/2`.  The conversions of `M` and `M+1` to `double` are
exact. -/
def sin_cos_series : ℕ → ℕ → K → K
  | 0, _, _ => 1
  | n + 1, M, x => r (1 - r (r (r (r (x * x) / M) / (M + 1 : ℕ)) * sin_cos_series n (M + 2) x))

/-- `detail::sin(B, A)` (fft.hpp 37-40): `(A*pi/B) * sin_cos_series(2, 34, B, A)`. -/
def sinSeries (pi : K) (B A : ℕ) : K := r (angle r pi B A * sin_cos_series r 16 2 (angle r pi B A))

/-- The state of the loop of `danielson_lanczos::apply`: the array, `wr`, `wi` (fft.hpp 60-64). -/
structure Loop (K : Type*) where
  data : ℕ → K
  wr : K
  wi : K

/-- One iteration of the loop (fft.hpp 65-77), for the index `i`. -/
def iter (off N : ℕ) (wpr wpi : K) (s : Loop K) (i : ℕ) : Loop K :=
  let tempr := r (r (s.data (off + i + N) * s.wr) - r (s.data (off + i + N + 1) * s.wi))
  let tempi := r (r (s.data (off + i + N) * s.wi) + r (s.data (off + i + N + 1) * s.wr))
  let d := put s.data (off + i + N) (r (s.data (off + i) - tempr))
  let d := put d (off + i + N + 1) (r (d (off + i + 1) - tempi))
  let d := put d (off + i) (r (d (off + i) + tempr))
  let d := put d (off + i + 1) (r (d (off + i + 1) + tempi))
  let wtemp := s.wr
  let wr := r (s.wr + r (r (s.wr * wpr) - r (s.wi * wpi)))
  let wi := r (s.wi + r (r (s.wi * wpr) + r (wtemp * wpi)))
  ⟨d, wr, wi⟩

/-- `for (i = 0; i < N; i += 2)` (fft.hpp 65), after `j` iterations. -/
def loop (off N : ℕ) (wpr wpi : K) (m : ℕ → K) : ℕ → Loop K
  | 0 => ⟨m, 1, 0⟩
  | j + 1 => iter r off N wpr wpi (loop off N wpr wpi m j) (2 * j)

/-- `danielson_lanczos<2>::apply` (fft.hpp 114-126). -/
def apply2 (off : ℕ) (d : ℕ → K) : ℕ → K :=
  let tr := d (off + 2)
  let ti := d (off + 3)
  let d := put d (off + 2) (r (d off - tr))
  let d := put d (off + 3) (r (d (off + 1) - ti))
  let d := put d off (r (d off + tr))
  let d := put d (off + 1) (r (d (off + 1) + ti))
  d

/-- `danielson_lanczos<4>::apply` (fft.hpp 81-112). -/
def apply4 (off : ℕ) (d : ℕ → K) : ℕ → K :=
  let tr := d (off + 2)
  let ti := d (off + 3)
  let d := put d (off + 2) (r (d off - tr))
  let d := put d (off + 3) (r (d (off + 1) - ti))
  let d := put d off (r (d off + tr))
  let d := put d (off + 1) (r (d (off + 1) + ti))
  let tr := d (off + 6)
  let ti := d (off + 7)
  let d := put d (off + 6) (r (d (off + 5) - ti))
  let d := put d (off + 7) (r (tr - d (off + 4)))
  let d := put d (off + 4) (r (d (off + 4) + tr))
  let d := put d (off + 5) (r (d (off + 5) + ti))
  let tr := d (off + 4)
  let ti := d (off + 5)
  let d := put d (off + 4) (r (d off - tr))
  let d := put d (off + 5) (r (d (off + 1) - ti))
  let d := put d off (r (d off + tr))
  let d := put d (off + 1) (r (d (off + 1) + ti))
  let tr := d (off + 6)
  let ti := d (off + 7)
  let d := put d (off + 6) (r (d (off + 2) - tr))
  let d := put d (off + 7) (r (d (off + 3) - ti))
  let d := put d (off + 2) (r (d (off + 2) + tr))
  let d := put d (off + 3) (r (d (off + 3) + ti))
  d

/-- `danielson_lanczos<2^k>::apply` (fft.hpp 47-126); `sn B A` is the sine of `A*pi/B` (`detail::sin`).  `k = 0` does not
occur. -/
def apply (sn : ℕ → ℕ → K) : ℕ → ℕ → (ℕ → K) → ℕ → K
  | 0, _, d => d
  | 1, off, d => apply2 r off d
  | 2, off, d => apply4 r off d
  | k + 3, off, d =>
    let N := 2 ^ (k + 3)
    let d := apply sn (k + 2) off d
    let d := apply sn (k + 2) (off + N) d
    let sina := -sn N 1
    let sinb := -sn N 2
    let wtemp := sina
    let wpr := r (r (-2 * wtemp) * wtemp)
    let wpi := sinb
    (loop r off N wpr wpi d (N / 2)).data

/-- `std::swap(data[a], data[b])`. -/
def swap (d : ℕ → K) (a b : ℕ) : ℕ → K := put (put d a (d b)) b (d a)

/-- The inner loop of `scramble` (fft.hpp 139-145): `while (m >= 2 && j > m) { j -= m; m >>= 1; } j += m;`, the new `j`. -/
def carry (j m : ℕ) : ℕ :=
  if h : 2 ≤ m ∧ m < j then carry (j - m) (m / 2) else j + m
termination_by m
decreasing_by omega

/-- The loop of `scramble` (fft.hpp 131-146) with `c` iterations left.  Simplification: `int` is unbounded (the values
stay below `2 N`, `C62_scramble_indices`). -/
def scrambleLoop (N : ℕ) : ℕ → ℕ → ℕ → (ℕ → K) → ℕ → K
  | 0, _, _, d => d
  | c + 1, i, j, d =>
    let d := if i < j then swap (swap d (j - 1) (i - 1)) j i else d
    scrambleLoop N c (i + 2) (carry j N) d

/-- `scramble<N>(data)` (fft.hpp 128-147): `i = 1, 3, ..., 2N-1`. -/
def scramble (N : ℕ) (d : ℕ → K) : ℕ → K := scrambleLoop N N 1 1 d

/-- `fft<2^k>(data)` (fft.hpp 150-156), for the sines `sn`. -/
def fftWith (sn : ℕ → ℕ → K) (k : ℕ) (d : ℕ → K) : ℕ → K := apply r sn k 0 (scramble (2 ^ k) d)

/-- `fft<2^k>(data)` (fft.hpp 150-156), with the sines computed by `detail::sin`. -/
def fft (pi : K) (k : ℕ) (d : ℕ → K) : ℕ → K := fftWith r (sinSeries r pi) k d

/-- The literal of `constexpr double pi` (q_lib/include/q/support/base.hpp 34). -/
def piLiteral : ℚ := 31415926535897932384626433832795 / 10 ^ 31

end FFT
end Verif
