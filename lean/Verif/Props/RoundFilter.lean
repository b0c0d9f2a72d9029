import Verif.Proof.RoundFilter
import Verif.Props.Follower
/-!
# C69: the filters in binary32 follow the exact filters for ever
-/
namespace Verif
open Rounding RoundFilter

section
variable {a0 a1 a2 a3 a4 : ℚ} {A0 A1 A2 A3 A4 : ℝ} {α β : ℂ} {r v B S : ℝ}

/-- The rounded step against the ideal coefficients applied to the same (rounded) state. -/
theorem RoundFilter.biquad_noise {fl : ℚ → ℚ} (L : Lawful 24 (-149) fl) (v0 : 0 ≤ v) (v1 : v ≤ 1 / 6) (B0 : 0 ≤ B)
    (hS : |A0| + |A1| + |A2| = S) (h3 : |A3| ≤ 2) (h4 : |A4| ≤ 1)
    (c0 : |(a0 : ℝ) - A0| + |(a1 : ℝ) - A1| + |(a2 : ℝ) - A2| ≤ v * S) (c3 : |(a3 : ℝ) - A3| ≤ v) (c4 : |(a4 : ℝ) - A4| ≤ v)
    (s x1 x2 y1 y2 : ℚ) (M : ℝ) (hs : |(s : ℝ)| ≤ B) (hx1 : |(x1 : ℝ)| ≤ B) (hx2 : |(x2 : ℝ)| ≤ B) (hy1 : |(y1 : ℝ)| ≤ M)
    (hy2 : |(y2 : ℝ)| ≤ M) :
    |((fl (fl (fl (fl (fl (a0 * s) + fl (a1 * x1)) + fl (a2 * x2)) - fl (a3 * y1)) - fl (a4 * y2)) : ℚ) : ℝ)
      - (A0 * s + A1 * x1 + A2 * x2 - A3 * y1 - A4 * y2)| ≤ (6 * u + v) * (S * B + 3 * M) + 10 * eta := by
  have h := sum5 L (a0 * s) (a1 * x1) (a2 * x2) (a3 * y1) (a4 * y2)
  have M0 : 0 ≤ M := (abs_nonneg _).trans hy1
  have tri : ∀ (a : ℚ) (A : ℝ), |(a : ℝ)| ≤ |A| + |(a : ℝ) - A| := fun a A => by
    calc |(a : ℝ)| = |A + (a - A)| := by ring_nf
      _ ≤ _ := abs_add_le _ _
  have T : |((a0 * s : ℚ) : ℝ)| + |((a1 * x1 : ℚ) : ℝ)| + |((a2 * x2 : ℚ) : ℝ)| + |((a3 * y1 : ℚ) : ℝ)| + |((a4 * y2 : ℚ) : ℝ)| ≤
      (1 + v) * S * B + (3 + 2 * v) * M := by
    push_cast
    simp only [abs_mul]
    have e0 := mul_le_mul (tri a0 A0) hs (abs_nonneg _) (by positivity)
    have e1 := mul_le_mul (tri a1 A1) hx1 (abs_nonneg _) (by positivity)
    have e2 := mul_le_mul (tri a2 A2) hx2 (abs_nonneg _) (by positivity)
    have e3 := mul_le_mul ((tri a3 A3).trans (add_le_add h3 c3)) hy1 (abs_nonneg _) (by positivity)
    have e4 := mul_le_mul ((tri a4 A4).trans (add_le_add h4 c4)) hy2 (abs_nonneg _) (by positivity)
    have e5 := mul_le_mul_of_nonneg_right c0 B0
    have e6 : S * B = |A0| * B + |A1| * B + |A2| * B := by rw [← hS]; ring
    nlinarith
  have C : |((a0 : ℝ) * s + a1 * x1 + a2 * x2 - a3 * y1 - a4 * y2) - (A0 * s + A1 * x1 + A2 * x2 - A3 * y1 - A4 * y2)| ≤
      v * S * B + 2 * v * M := by
    have e : ((a0 : ℝ) * s + a1 * x1 + a2 * x2 - a3 * y1 - a4 * y2) - (A0 * s + A1 * x1 + A2 * x2 - A3 * y1 - A4 * y2) =
        (a0 - A0) * s + (a1 - A1) * x1 + (a2 - A2) * x2 - (a3 - A3) * y1 - (a4 - A4) * y2 := by ring
    rw [e]
    refine (abs_sub _ _).trans ?_
    refine (add_le_add_left (abs_sub _ _) _).trans ?_
    refine (add_le_add_left (add_le_add_left (abs_add_le _ _) _) _).trans ?_
    refine (add_le_add_left (add_le_add_left (add_le_add_left (abs_add_le _ _) _) _) _).trans ?_
    simp only [abs_mul]
    have e0 := mul_le_mul_of_nonneg_left hs (abs_nonneg ((a0 : ℝ) - A0))
    have e1 := mul_le_mul_of_nonneg_left hx1 (abs_nonneg ((a1 : ℝ) - A1))
    have e2 := mul_le_mul_of_nonneg_left hx2 (abs_nonneg ((a2 : ℝ) - A2))
    have e3 := mul_le_mul c3 hy1 (abs_nonneg _) v0
    have e4 := mul_le_mul c4 hy2 (abs_nonneg _) v0
    have e5 := mul_le_mul_of_nonneg_right c0 B0
    nlinarith
  push_cast at h T
  have SB : 0 ≤ S * B := mul_nonneg (by rw [← hS]; positivity) B0
  have h' : _ ≤ (6 * u + v) * (S * B + 3 * M) + 10 * eta :=
    calc _ = |(((fl (fl (fl (fl (fl (a0 * s) + fl (a1 * x1)) + fl (a2 * x2)) - fl (a3 * y1)) - fl (a4 * y2)) : ℚ) : ℝ)
              - (a0 * s + a1 * x1 + a2 * x2 - a3 * y1 - a4 * y2)) +
              (((a0 : ℝ) * s + a1 * x1 + a2 * x2 - a3 * y1 - a4 * y2) - (A0 * s + A1 * x1 + A2 * x2 - A3 * y1 - A4 * y2))| := by
            rw [sub_add_sub_cancel]
      _ ≤ _ := abs_add_le _ _
      _ ≤ (506 / 100 * u * ((1 + v) * S * B + (3 + 2 * v) * M) + 10 * eta) + (v * S * B + 2 * v * M) := by
            refine add_le_add (h.trans ?_) C
            have := mul_le_mul_of_nonneg_left T (by norm_num : (0 : ℝ) ≤ 506 / 100 * u)
            linarith
      _ ≤ _ := by
            have k1 : v * (S * B) ≤ 1 / 6 * (S * B) := mul_le_mul_of_nonneg_right v1 SB
            have k2 : v * M ≤ 1 / 6 * M := mul_le_mul_of_nonneg_right v1 M0
            have k3 : 0 ≤ v * M := mul_nonneg v0 M0
            rw [mul_assoc (1 + v), mul_assoc v]
            generalize S * B = W at *
            generalize eta = h at *
            unfold u
            nlinarith
  exact h'

/-- The invariant of the ideal and the rounded biquad running side by side. -/
structure RoundFilter.BiquadRel (a0 a1 a2 a3 a4 : ℚ) (A0 A1 A2 A3 A4 : ℝ) (α : ℂ) (r B Y D : ℝ) (b : Biquad ℚ) (c : Biquad ℝ) : Prop where
  e0 : b.a0 = a0
  e1 : b.a1 = a1
  e2 : b.a2 = a2
  e3 : b.a3 = a3
  e4 : b.a4 = a4
  E0 : c.a0 = A0
  E1 : c.a1 = A1
  E2 : c.a2 = A2
  E3 : c.a3 = A3
  E4 : c.a4 = A4
  x1 : c.x1 = b.x1
  x2 : c.x2 = b.x2
  bx1 : |(b.x1 : ℝ)| ≤ B
  bx2 : |(b.x2 : ℝ)| ≤ B
  y1 : |c.y1| ≤ Y
  y2 : |c.y2| ≤ Y
  y12 : ‖(c.y1 : ℂ) - α * c.y2‖ ≤ (1 - r) * Y
  d1 : |(b.y1 : ℝ) - c.y1| ≤ D
  d2 : |(b.y2 : ℝ) - c.y2| ≤ D
  d12 : ‖(((b.y1 : ℝ) - c.y1 : ℝ) : ℂ) - α * (((b.y2 : ℝ) - c.y2 : ℝ) : ℂ)‖ ≤ (1 - r) * D

/-- **C69.** The binary32 biquad follows the ideal one for ever.  Let the ideal filter have real coefficients `A0 … A4` and poles
`α, β` (the roots of `z² + A3 z + A4`) of modulus at most `r < 1`, and let the coefficients actually stored, `a0 … a4`, differ from
the ideal ones by at most `v` (relative to `S = |A0| + |A1| + |A2|` for the first three).  If `6 (6·2^-24 + v) ≤ (1 - r)²`, then for
every signal bounded by `B`, of any length, each output of the biquad in `float` arithmetic started from rest is within
`8 (6·2^-24 + v) S B / (1 - r)^4 + 20·2^-150 / (1 - r)^2` of the output of the ideal filter, and hence bounded. -/
theorem C69_biquad (h1 : α + β = -(A3 : ℂ)) (h2 : α * β = (A4 : ℂ)) (hα : ‖α‖ ≤ r) (hβ : ‖β‖ ≤ r) (hr : r < 1)
    (v0 : 0 ≤ v) (hS : |A0| + |A1| + |A2| = S)
    (c0 : |(a0 : ℝ) - A0| + |(a1 : ℝ) - A1| + |(a2 : ℝ) - A2| ≤ v * S) (c3 : |(a3 : ℝ) - A3| ≤ v) (c4 : |(a4 : ℝ) - A4| ≤ v)
    (small : 6 * (6 * (1 / 2 ^ 24) + v) ≤ (1 - r) ^ 2) (xs : List ℚ) (hx : ∀ x ∈ xs, |(x : ℝ)| ≤ B) :
    List.Forall₂ (fun (yh : ℚ) (y : ℝ) =>
        |(yh : ℝ) - y| ≤ 8 * (6 * (1 / 2 ^ 24) + v) * S * B / (1 - r) ^ 4 + 20 * (1 / 2 ^ 150) / (1 - r) ^ 2 ∧
        |(yh : ℝ)| ≤ S * B / (1 - r) ^ 2 + 8 * (6 * (1 / 2 ^ 24) + v) * S * B / (1 - r) ^ 4 + 20 * (1 / 2 ^ 150) / (1 - r) ^ 2)
      (outputs (RoundFilter.biquad fl32) (Biquad.mk' a0 a1 a2 a3 a4) xs)
      (outputs Biquad.feed (Biquad.mk' A0 A1 A2 A3 A4) (xs.map fun x : ℚ => (x : ℝ))) := by
  cases xs with
  | nil => exact .nil
  | cons x0 xs0 =>
  have B0 : 0 ≤ B := (abs_nonneg _).trans (hx x0 (by simp))
  generalize x0 :: xs0 = xs at *
  obtain ⟨h3, h4⟩ := poles_bound h1 h2 hα hβ hr
  have r0 : 0 ≤ r := (norm_nonneg _).trans hα
  have p0 : 0 < 1 - r := by linarith
  have p1 : 1 - r ≤ 1 := by linarith
  have q1 : (1 - r) ^ 2 ≤ 1 := by nlinarith
  have q0 : 0 < (1 - r) ^ 2 := by positivity
  have vv : v ≤ 1 / 6 := by linarith
  have S0 : 0 ≤ S := by rw [← hS]; positivity
  have SB : 0 ≤ S * B := mul_nonneg S0 B0
  obtain ⟨Y, hY⟩ : ∃ Y, Y = S * B / (1 - r) ^ 2 := ⟨_, rfl⟩
  obtain ⟨D, hD⟩ : ∃ D, D = 8 * (6 * (1 / 2 ^ 24) + v) * S * B / (1 - r) ^ 4 + 20 * (1 / 2 ^ 150) / (1 - r) ^ 2 := ⟨_, rfl⟩
  have Y0 : 0 ≤ Y := by rw [hY]; positivity
  have D0 : 0 ≤ D := by rw [hD]; positivity
  have eY : (1 - r) ^ 2 * Y = S * B := by rw [hY]; field_simp
  have eD : (6 * u + v) * (S * B + 3 * (Y + D)) + 10 * eta ≤ (1 - r) ^ 2 * D := by
    have e1 : (1 - r) ^ 2 * D = 8 * (6 * (1 / 2 ^ 24) + v) * Y + 20 * (1 / 2 ^ 150) := by
      rw [hD, hY]; field_simp
    have e2 : S * B ≤ Y := by rw [← eY]; nlinarith
    have e3 : 3 * (6 * (1 / 2 ^ 24) + v) * D ≤ (1 - r) ^ 2 * D / 2 := by nlinarith
    have e4 := mul_le_mul_of_nonneg_left e2 (by positivity : 0 ≤ 6 * (1 / 2 ^ 24) + v)
    unfold u eta
    generalize (1 : ℝ) / 2 ^ 150 = h at *
    nlinarith
  rw [add_assoc (S * B / (1 - r) ^ 2)]
  rw [← hD, ← hY]
  refine outputs_forall₂ _ _ (BiquadRel a0 a1 a2 a3 a4 A0 A1 A2 A3 A4 α r B Y D) (fun (x : ℚ) (x' : ℝ) => x' = x ∧ |(x : ℝ)| ≤ B) _ ?_ _ _ ?_ _ _ ?_
  · rintro b c x _ ⟨e0, e1, e2, e3, e4, E0, E1, E2, E3, E4, x1, x2, bx1, bx2, y1, y2, y12, d1, d2, d12⟩ ⟨rfl, hx⟩
    have m1 : |(b.y1 : ℝ)| ≤ Y + D := by
      calc |(b.y1 : ℝ)| = |c.y1 + (b.y1 - c.y1)| := by ring_nf
        _ ≤ _ := (abs_add_le _ _).trans (add_le_add y1 d1)
    have m2 : |(b.y2 : ℝ)| ≤ Y + D := by
      calc |(b.y2 : ℝ)| = |c.y2 + (b.y2 - c.y2)| := by ring_nf
        _ ≤ _ := (abs_add_le _ _).trans (add_le_add y2 d2)
    have N := biquad_noise fl32_lawful v0 vv B0 hS h3 h4 c0 c3 c4 x b.x1 b.x2 b.y1 b.y2 (Y + D) hx bx1 bx2 m1 m2
    set rh := fl32 (fl32 (fl32 (fl32 (fl32 (a0 * x) + fl32 (a1 * b.x1)) + fl32 (a2 * b.x2)) - fl32 (a3 * b.y1)) - fl32 (a4 * b.y2))
    obtain ⟨y, hy⟩ : ∃ y : ℝ, y = A0 * x + A1 * b.x1 + A2 * b.x2 - A3 * c.y1 - A4 * c.y2 := ⟨_, rfl⟩
    have F : RoundFilter.biquad fl32 b x = ({ b with x2 := b.x1, x1 := x, y2 := b.y1, y1 := rh }, rh) := by
      simp only [RoundFilter.biquad, e0, e1, e2, e3, e4]; rfl
    have G : Biquad.feed c (x : ℝ) = ({ c with x2 := c.x1, x1 := (x : ℝ), y2 := c.y1, y1 := y }, y) := by
      simp only [Biquad.feed, E0, E1, E2, E3, E4, x1, x2, hy]
    have U : |A0 * x + A1 * b.x1 + A2 * b.x2| ≤ (1 - r) ^ 2 * Y := by
      rw [eY, ← hS, add_mul, add_mul]
      refine (abs_add_le _ _).trans (add_le_add ((abs_add_le _ _).trans (add_le_add ?_ ?_)) ?_) <;>
        (rw [abs_mul]; exact mul_le_mul_of_nonneg_left (by assumption) (abs_nonneg _))
    obtain ⟨k1, k2⟩ := second h1 h2 hα hβ y1 y12 U (d0 := y) (by rw [hy]; ring)
    obtain ⟨k3, k4⟩ := second h1 h2 hα hβ d1 d12 (N.trans eD) (d0 := (rh : ℝ) - y) (by rw [hy]; ring)
    rw [F, G]
    refine ⟨⟨e0, e1, e2, e3, e4, E0, E1, E2, E3, E4, rfl, x1, hx, bx1, k1, y1, k2, k3, d1, k4⟩, k3, ?_⟩
    calc |(rh : ℝ)| = |y + (rh - y)| := by ring_nf
      _ ≤ _ := (abs_add_le _ _).trans (add_le_add k1 k3)
  · constructor <;> simp [Biquad.mk', B0, Y0, D0] <;> positivity
  · rw [List.forall₂_map_right_iff]
    exact List.forall₂_same.mpr fun x hx' => ⟨rfl, hx x hx'⟩
end

/-- A concrete low-pass: poles `(1 ± i)/2`, so `r = 3/4`; a unit signal is reproduced within a thousandth. -/
example (xs : List ℚ) (hx : ∀ x ∈ xs, |(x : ℝ)| ≤ 1) :
    List.Forall₂ (fun (yh : ℚ) (y : ℝ) => |(yh : ℝ) - y| ≤ 1 / 1000)
      (outputs (RoundFilter.biquad fl32) (Biquad.mk' (1 / 8) (1 / 4) (1 / 8) (-1) (1 / 2)) xs)
      (outputs Biquad.feed (Biquad.mk' (1 / 8) (1 / 4) (1 / 8) (-1) (1 / 2)) (xs.map fun x : ℚ => (x : ℝ))) := by
  have n : ∀ s : ℝ, s ^ 2 = 1 → ‖(⟨1 / 2, s / 2⟩ : ℂ)‖ ≤ 3 / 4 := by
    intro s hs
    rw [← sq_le_sq₀ (norm_nonneg _) (by norm_num), ← Complex.normSq_eq_norm_sq, Complex.normSq_apply]
    simp only; nlinarith
  refine (C69_biquad (α := ⟨1 / 2, 1 / 2⟩) (β := ⟨1 / 2, -1 / 2⟩) (r := 3 / 4) (v := 0) (B := 1) (S := 1 / 2) ?_ ?_ (n 1 (by norm_num))
    (n (-1) (by norm_num)) (by norm_num) le_rfl ?_ ?_ ?_ ?_ ?_ xs hx).imp ?_
  · apply Complex.ext <;> norm_num
  · apply Complex.ext <;> norm_num [Complex.mul_re, Complex.mul_im]
  · norm_num [abs_of_pos]
  · norm_num
  · norm_num
  · norm_num
  · norm_num
  · intro a b h
    refine h.1.trans ?_
    norm_num

/-! ## First-order filters -/

theorem RoundFilter.same {xs : List ℚ} {P : ℚ → Prop} (hx : ∀ x ∈ xs, P x) :
    List.Forall₂ (fun x x' : ℚ => x' = x ∧ P x) xs xs :=
  List.forall₂_same.mpr fun x h => ⟨rfl, hx x h⟩

/-- **C69.** `leaky_integrator` in `float` arithmetic: for every coefficient `a` in `[0, 1)`, every signal of `float`s and initial
value bounded by `B`, of any length, each output is within `(5.1·2^-24 B + 4·2^-150) / (1 - a)` of the exact filter. -/
theorem C69_leaky (a : ℚ) (ha : IsFloat a) (h0 : 0 ≤ a) (h1 : a < 1) (y0 B : ℚ) (hy : IsFloat y0) (hB : |y0| ≤ B) (xs : List ℚ)
    (hx : ∀ x ∈ xs, IsFloat x ∧ |x| ≤ B) :
    List.Forall₂ (fun yh y => |yh - y| ≤ (51 / 10 * (1 / 2 ^ 24) * B + 4 * (1 / 2 ^ 150)) / (1 - a))
      (outputs (Follow.leaky fl32 a) y0 xs) (outputs (Follow.leaky id a) y0 xs) := by
  have L := fl32_lawful
  have p : 0 < 1 - a := by linarith
  have B0 : 0 ≤ B := (abs_nonneg _).trans hB
  refine outputs_forall₂ _ _ (fun yh y => IsFloat yh ∧ |yh| ≤ B ∧ |yh - y| ≤ (51 / 10 * (1 / 2 ^ 24) * B + 4 * (1 / 2 ^ 150)) / (1 - a))
    (fun x x' => x' = x ∧ IsFloat x ∧ |x| ≤ B) _ ?_ _ _ ⟨hy, hB, by rw [sub_self, abs_zero]; positivity⟩ _ _ (same hx)
  rintro yh y _ x ⟨f1, f2, f3⟩ ⟨rfl, f4, f5⟩
  have n := leaky_noise L h0 h1.le f2 f5
  have k : |fl32 (x + fl32 (a * fl32 (yh - x))) - (x + a * (y - x))| ≤ (51 / 10 * (1 / 2 ^ 24) * B + 4 * (1 / 2 ^ 150)) / (1 - a) := by
    have := firstQ (a := a) (z := x - a * x) (r := a) (by rw [abs_of_nonneg h0]) f3 (w := fl32 (x + fl32 (a * fl32 (yh - x))))
      (E := 51 / 10 * (1 / 2 ^ 24) * B + 4 * (1 / 2 ^ 150)) (by convert n using 3; ring) (le_of_eq (by field_simp))
    convert this using 3; ring
  have hb := L.approach_between (by norm_num) f4 ha f1 h0 h1
  rw [abs_le] at f2 f5
  exact ⟨⟨L.rep _, abs_le.mpr ⟨(le_min f5.1 f2.1).trans hb.1, hb.2.trans (max_le f5.2 f2.2)⟩, k⟩, k⟩

/-- **C69.** `one_pole_lowpass` in `float` arithmetic: for every coefficient `a` in `(0, 1)`, every signal of `float`s and initial
value bounded by `B`, of any length, each output is within `(5.1·2^-24 B + 4·2^-150) / a` of the exact filter. -/
theorem C69_one_pole (a : ℚ) (ha : IsFloat a) (h0 : 0 < a) (h1 : a < 1) (y0 B : ℚ) (hy : IsFloat y0) (hB : |y0| ≤ B) (xs : List ℚ)
    (hx : ∀ x ∈ xs, IsFloat x ∧ |x| ≤ B) :
    List.Forall₂ (fun yh y => |yh - y| ≤ (51 / 10 * (1 / 2 ^ 24) * B + 4 * (1 / 2 ^ 150)) / a)
      (outputs (Follow.onePole fl32 a) y0 xs) (outputs (Follow.onePole id a) y0 xs) := by
  have L := fl32_lawful
  have B0 : 0 ≤ B := (abs_nonneg _).trans hB
  refine outputs_forall₂ _ _ (fun yh y => IsFloat yh ∧ |yh| ≤ B ∧ |yh - y| ≤ (51 / 10 * (1 / 2 ^ 24) * B + 4 * (1 / 2 ^ 150)) / a)
    (fun x x' => x' = x ∧ IsFloat x ∧ |x| ≤ B) _ ?_ _ _ ⟨hy, hB, by rw [sub_self, abs_zero]; positivity⟩ _ _ (same hx)
  rintro yh y _ x ⟨f1, f2, f3⟩ ⟨rfl, f4, f5⟩
  have n := leaky_noise L h0.le h1.le f5 f2
  have k : |fl32 (yh + fl32 (a * fl32 (x - yh))) - (y + a * (x - y))| ≤ (51 / 10 * (1 / 2 ^ 24) * B + 4 * (1 / 2 ^ 150)) / a := by
    have := firstQ (a := 1 - a) (z := a * x) (r := 1 - a) (by rw [abs_of_pos (by linarith)]) f3 (w := fl32 (yh + fl32 (a * fl32 (x - yh))))
      (E := 51 / 10 * (1 / 2 ^ 24) * B + 4 * (1 / 2 ^ 150)) (by convert n using 3; ring) (le_of_eq (by field_simp; ring))
    convert this using 3; ring
  have hb := L.approach_between (by norm_num) f1 ha f4 h0.le h1
  rw [abs_le] at f2 f5
  exact ⟨⟨L.rep _, abs_le.mpr ⟨(le_min f2.1 f5.1).trans hb.1, hb.2.trans (max_le f2.2 f5.2)⟩, k⟩, k⟩

theorem RoundFilter.bound_of_close {yh y Y D : ℚ} (hy : |y| ≤ Y) (hd : |yh - y| ≤ D) : |yh| ≤ Y + D := by
  calc |yh| = |y + (yh - y)| := by ring_nf
    _ ≤ _ := absAdd hy hd

/-- **C69.** `dc_block` in `float` arithmetic: for every pole `p` in `[0, 1 - 5·2^-24]` and every signal bounded by `B`, of any
length, each output from rest is within `(16.1·2^-24 B + 8·2^-150) / (1 - p)` of the exact filter. -/
theorem C69_dc_block (p : ℚ) (h0 : 0 ≤ p) (h1 : 5 * (1 / 2 ^ 24) ≤ 1 - p) (B : ℚ) (xs : List ℚ) (hx : ∀ x ∈ xs, |x| ≤ B) :
    List.Forall₂ (fun yh y => |yh - y| ≤ (161 / 10 * (1 / 2 ^ 24) * B + 8 * (1 / 2 ^ 150)) / (1 - p))
      (outputs (RoundFilter.dcBlock fl32 p) ⟨0, 0⟩ xs) (outputs (Fx.DcBlock.feed p) ⟨0, 0⟩ xs) := by
  cases xs with
  | nil => exact .nil
  | cons x0 xs0 =>
  have B0 : 0 ≤ B := (abs_nonneg _).trans (hx x0 (by simp))
  generalize x0 :: xs0 = xs at *
  have L := fl32_lawful
  have p0 : 0 < 1 - p := lt_of_lt_of_le (by norm_num) h1
  obtain ⟨D, hD⟩ : ∃ D, D = (161 / 10 * (1 / 2 ^ 24) * B + 8 * (1 / 2 ^ 150)) / (1 - p) := ⟨_, rfl⟩
  have D0 : 0 ≤ D := by rw [hD]; positivity
  have eD : 401 / 100 * uq * B + 201 / 100 * uq * (2 * B + D) + 4 * eq ≤ (1 - p) * D := by
    have e : (1 - p) * D = 161 / 10 * (1 / 2 ^ 24) * B + 8 * (1 / 2 ^ 150) := by rw [hD]; field_simp
    have e2 : 5 * (1 / 2 ^ 24) * D ≤ (1 - p) * D := mul_le_mul_of_nonneg_right h1 D0
    unfold uq eq
    generalize (1 : ℚ) / 2 ^ 150 = h at *
    linarith
  rw [← hD]
  refine outputs_forall₂ _ _ (fun (b c : Fx.DcBlock ℚ) => c.x = b.x ∧ |b.x| ≤ B ∧ |b.x - c.y| ≤ B ∧ |b.y - c.y| ≤ D)
    (fun x x' => x' = x ∧ |x| ≤ B) _ ?_ _ _ ⟨rfl, by simpa using B0, by simpa using B0, by simpa using D0⟩ _ _ (same hx)
  rintro b c _ x ⟨f1, f2, f3, f4⟩ ⟨rfl, f5⟩
  have cy : |c.y| ≤ 2 * B := by
    calc |c.y| = |b.x - (b.x - c.y)| := by ring_nf
      _ ≤ _ := (absSub f2 f3).trans (by linarith)
  have n := (dc_noise L (p := p) (by rw [abs_of_nonneg h0]; linarith) (bound_of_close cy f4) f5 f2).trans eD
  have k : |fl32 (fl32 (x - b.x) + fl32 (p * b.y)) - (x - c.x + p * c.y)| ≤ D := by
    rw [f1]
    exact firstQ (r := p) (by rw [abs_of_nonneg h0]) f4 n le_rfl
  refine ⟨⟨rfl, f5, ?_, k⟩, k⟩
  show |x - (x - c.x + p * c.y)| ≤ B
  rw [f1]
  rw [abs_le] at f2 f3 ⊢
  constructor <;> nlinarith

/-- **C69.** `exp_moving_average` in `float` arithmetic: for every pair of coefficients with `|b| ≤ 1` and
`|b_| ≤ 1 - 5·2^-24`, and every signal bounded by `B`, of any length, each output from rest is within
`(4.1·2^-24 B (1 + |b| / (1 - |b_|)) + 8·2^-150) / (1 - |b_|)` of the exact recursion. -/
theorem C69_ema (b b_ : ℚ) (h0 : |b| ≤ 1) (h1 : 5 * (1 / 2 ^ 24) ≤ 1 - |b_|) (B : ℚ) (xs : List ℚ) (hx : ∀ x ∈ xs, |x| ≤ B) :
    List.Forall₂ (fun yh y => |yh - y| ≤ (41 / 10 * (1 / 2 ^ 24) * B * (1 + |b| / (1 - |b_|)) + 8 * (1 / 2 ^ 150)) / (1 - |b_|))
      (outputs (RoundFilter.ema fl32) ⟨b, b_, 0⟩ xs) (outputs Ema.feed ⟨b, b_, 0⟩ xs) := by
  cases xs with
  | nil => exact .nil
  | cons x0 xs0 =>
  have B0 : 0 ≤ B := (abs_nonneg _).trans (hx x0 (by simp))
  generalize x0 :: xs0 = xs at *
  have L := fl32_lawful
  have p0 : 0 < 1 - |b_| := lt_of_lt_of_le (by norm_num) h1
  obtain ⟨D, hD⟩ : ∃ D, D = (41 / 10 * (1 / 2 ^ 24) * B * (1 + |b| / (1 - |b_|)) + 8 * (1 / 2 ^ 150)) / (1 - |b_|) := ⟨_, rfl⟩
  obtain ⟨Y, hY⟩ : ∃ Y, Y = B * (|b| / (1 - |b_|)) := ⟨_, rfl⟩
  have D0 : 0 ≤ D := by rw [hD]; positivity
  have Y0 : 0 ≤ Y := by rw [hY]; positivity
  have eY : |b| * B = (1 - |b_|) * Y := by rw [hY]; field_simp
  have eD : 201 / 100 * uq * (B + (Y + D)) + 4 * eq ≤ (1 - |b_|) * D := by
    have e : (1 - |b_|) * D = 41 / 10 * (1 / 2 ^ 24) * (B + Y) + 8 * (1 / 2 ^ 150) := by rw [hD, hY]; field_simp
    have e2 : 5 * (1 / 2 ^ 24) * D ≤ (1 - |b_|) * D := mul_le_mul_of_nonneg_right h1 D0
    unfold uq eq
    generalize (1 : ℚ) / 2 ^ 150 = h at *
    linarith
  rw [← hD]
  refine outputs_forall₂ _ _ (fun (e c : Ema ℚ) => e.b = b ∧ e.b_ = b_ ∧ c.b = b ∧ c.b_ = b_ ∧ |c.y| ≤ Y ∧ |e.y - c.y| ≤ D)
    (fun x x' => x' = x ∧ |x| ≤ B) _ ?_ _ _ ⟨rfl, rfl, rfl, rfl, by simpa using Y0, by simpa using D0⟩ _ _ (same hx)
  rintro ⟨eb, eb_, ey⟩ ⟨cb, cb_, cy⟩ _ x ⟨f1, f2, f3, f4, f5, f6⟩ ⟨rfl, f7⟩
  simp only at f1 f2 f3 f4 f5 f6
  subst f1 f2 f3 f4
  have n := (ema_noise L h0 (by linarith : |cb_| ≤ 1) (bound_of_close f5 f6) f7).trans eD
  have k := firstQ (r := |cb_|) le_rfl f6 n le_rfl
  refine ⟨⟨rfl, rfl, rfl, rfl, ?_, k⟩, k⟩
  show |cb * x + cb_ * cy| ≤ Y
  have e1 : |cb * x| ≤ |cb| * B := by rw [abs_mul]; exact mul_le_mul_of_nonneg_left f7 (abs_nonneg _)
  have e2 : |cb_ * cy| ≤ |cb_| * Y := by rw [abs_mul]; exact mul_le_mul_of_nonneg_left f5 (abs_nonneg _)
  refine (absAdd e1 e2).trans (le_of_eq ?_)
  rw [eY]; ring

/-- **C69.** `one_pole_allpass` in `float` arithmetic: for every coefficient with `|a| ≤ 1 - 7·2^-24` and every signal bounded by
`B`, of any length, each output from rest is within `(27·2^-24 B + 13·2^-150) / (1 - |a|)` of the exact filter. -/
theorem C69_one_pole_allpass (a : ℚ) (h1 : 7 * (1 / 2 ^ 24) ≤ 1 - |a|) (B : ℚ) (xs : List ℚ) (hx : ∀ x ∈ xs, |x| ≤ B) :
    List.Forall₂ (fun oh o => |oh - o| ≤ (27 * (1 / 2 ^ 24) * B + 13 * (1 / 2 ^ 150)) / (1 - |a|))
      (outputs (RoundFilter.onePoleAllpass fl32 a) 0 xs) (outputs (Fx.onePoleAllpass a) 0 xs) := by
  cases xs with
  | nil => exact .nil
  | cons x0 xs0 =>
  have B0 : 0 ≤ B := (abs_nonneg _).trans (hx x0 (by simp))
  generalize x0 :: xs0 = xs at *
  have L := fl32_lawful
  have p0 : 0 < 1 - |a| := lt_of_lt_of_le (by norm_num) h1
  have p1 : 1 - |a| ≤ 1 := by have := abs_nonneg a; linarith
  have a1 : |a| ≤ 1 := by linarith
  obtain ⟨D, hD⟩ : ∃ D, D = (222 / 10 * (1 / 2 ^ 24) * B + 10 * (1 / 2 ^ 150)) / (1 - |a|) := ⟨_, rfl⟩
  have D0 : 0 ≤ D := by rw [hD]; positivity
  have e : (1 - |a|) * D = 222 / 10 * (1 / 2 ^ 24) * B + 10 * (1 / 2 ^ 150) := by rw [hD]; field_simp
  have eD : 503 / 100 * uq * B + 302 / 100 * uq * (2 * B + D) + 5 * eq ≤ (1 - |a|) * D := by
    have e2 : 7 * (1 / 2 ^ 24) * D ≤ (1 - |a|) * D := mul_le_mul_of_nonneg_right h1 D0
    unfold uq eq
    generalize (1 : ℚ) / 2 ^ 150 = h at *
    linarith
  have eO : D + (uq * ((2 * B + D) + 201 / 100 * B) + 201 / 100 * eq) ≤ (27 * (1 / 2 ^ 24) * B + 13 * (1 / 2 ^ 150)) / (1 - |a|) := by
    rw [le_div_iff₀ p0]
    have e3 : 0 ≤ (1 - |a|) * D := by positivity
    have e4 : (1 - |a|) * B ≤ 1 * B := mul_le_mul_of_nonneg_right p1 B0
    have e5 : (1 - |a|) * eq ≤ 1 * eq := mul_le_mul_of_nonneg_right p1 eq_pos.le
    have := eq_pos
    unfold uq
    unfold eq at *
    generalize (1 : ℚ) / 2 ^ 150 = h at *
    nlinarith
  refine outputs_forall₂ _ _ (fun (yh y : ℚ) => |y| ≤ (1 + |a|) * B ∧ |yh - y| ≤ D)
    (fun x x' => x' = x ∧ |x| ≤ B) _ ?_ _ _ ⟨by rw [abs_zero]; positivity, by simpa using D0⟩ _ _ (same hx)
  rintro yh y _ x ⟨f1, f2⟩ ⟨rfl, f3⟩
  have f1' : |y| ≤ 2 * B := f1.trans (mul_le_mul_of_nonneg_right (by linarith) B0)
  obtain ⟨n1, n2⟩ := allpass_noise L a1 (bound_of_close f1' f2) f3
  refine ⟨⟨?_, ?_⟩, ?_⟩
  · show |x - a * (y + a * x)| ≤ _
    have e1 : x - a * (y + a * x) = (1 - |a| ^ 2) * x + -a * y := by rw [sq_abs]; ring
    rw [e1]
    have q : 0 ≤ 1 - |a| ^ 2 := by nlinarith [abs_nonneg a]
    have k1 : |(1 - |a| ^ 2) * x| ≤ (1 - |a| ^ 2) * B := by
      rw [abs_mul, abs_of_nonneg q]; exact mul_le_mul_of_nonneg_left f3 q
    have k2 : |-a * y| ≤ |a| * ((1 + |a|) * B) := by
      rw [abs_mul, abs_neg]; exact mul_le_mul_of_nonneg_left f1 (abs_nonneg _)
    exact (absAdd k1 k2).trans (le_of_eq (by ring))
  · have := firstQ (a := -a) (r := |a|) (z := x - a * (a * x)) (by rw [abs_neg]) f2 (w := fl32 (x - fl32 (a * fl32 (yh + fl32 (a * x)))))
      (E := (1 - |a|) * D) (le_of_eq_of_le (congrArg abs (by ring)) (n2.trans eD)) le_rfl
    show |fl32 (x - fl32 (a * fl32 (yh + fl32 (a * x)))) - (x - a * (y + a * x))| ≤ D
    convert this using 3; ring
  · show |fl32 (yh + fl32 (a * x)) - (y + a * x)| ≤ _
    refine le_trans ?_ eO
    have e1 : fl32 (yh + fl32 (a * x)) - (y + a * x) = (yh - y) + (fl32 (yh + fl32 (a * x)) - (yh + a * x)) := by ring
    rw [e1]
    exact absAdd f2 n1

/-- **C69.** `polyphase_allpass` in `float` arithmetic: for every coefficient with `|a| ≤ 1 - 7·2^-24` and every signal bounded by
`B`, of any length, each output from rest is within `(20.2·2^-24 B / (1 - |a|) + 8·2^-150) / (1 - |a|)` of the exact filter. -/
theorem C69_polyphase (a : ℚ) (h1 : 7 * (1 / 2 ^ 24) ≤ 1 - |a|) (B : ℚ) (xs : List ℚ) (hx : ∀ x ∈ xs, |x| ≤ B) :
    List.Forall₂ (fun yh y => |yh - y| ≤ (202 / 10 * (1 / 2 ^ 24) * B / (1 - |a|) + 8 * (1 / 2 ^ 150)) / (1 - |a|))
      (outputs (RoundFilter.polyphase fl32 a) Fx.Poly.init xs) (outputs (Fx.Poly.feed a) Fx.Poly.init xs) := by
  cases xs with
  | nil => exact .nil
  | cons x0 xs0 =>
  have B0 : 0 ≤ B := (abs_nonneg _).trans (hx x0 (by simp))
  generalize x0 :: xs0 = xs at *
  have L := fl32_lawful
  have p0 : 0 < 1 - |a| := lt_of_lt_of_le (by norm_num) h1
  have p1 : 1 - |a| ≤ 1 := by have := abs_nonneg a; linarith
  have a1 : |a| ≤ 1 := by linarith
  obtain ⟨Y, hY⟩ : ∃ Y, Y = B / (1 - |a|) := ⟨_, rfl⟩
  obtain ⟨D, hD⟩ : ∃ D, D = (202 / 10 * (1 / 2 ^ 24) * B / (1 - |a|) + 8 * (1 / 2 ^ 150)) / (1 - |a|) := ⟨_, rfl⟩
  have D0 : 0 ≤ D := by rw [hD]; positivity
  have Y0 : 0 ≤ Y := by rw [hY]; positivity
  have eY : B = (1 - |a|) * Y := by rw [hY]; field_simp
  have e : (1 - |a|) * D = 202 / 10 * (1 / 2 ^ 24) * Y + 8 * (1 / 2 ^ 150) := by rw [hD, hY]; field_simp
  have eD : 402 / 100 * uq * B + 302 / 100 * uq * (2 * Y + D) + 4 * eq ≤ (1 - |a|) * D := by
    have e2 : 7 * (1 / 2 ^ 24) * D ≤ (1 - |a|) * D := mul_le_mul_of_nonneg_right h1 D0
    have e3 : B ≤ Y := by rw [eY]; nlinarith
    unfold uq eq
    generalize (1 : ℚ) / 2 ^ 150 = h at *
    linarith
  rw [← hD]
  refine outputs_forall₂ _ _ (fun (p c : Fx.Poly ℚ) => c.x1 = p.x1 ∧ c.x2 = p.x2 ∧ |p.x1| ≤ B ∧ |p.x2| ≤ B ∧ |c.y1| ≤ 2 * Y ∧ |c.y2| ≤ 2 * Y ∧
      |p.y1 - c.y1| ≤ D ∧ |p.y2 - c.y2| ≤ D)
    (fun x x' => x' = x ∧ |x| ≤ B) _ ?_ _ _ ?_ _ _ (same hx)
  · rintro p c _ x ⟨f1, f2, f3, f4, f5, f6, f7, f8⟩ ⟨rfl, f9⟩
    have n := (poly_noise L a1 (bound_of_close f6 f8) f9 f4).trans eD
    have k : |fl32 (fl32 (a * fl32 (x + p.y2)) - p.x2) - (a * (x + c.y2) - c.x2)| ≤ D := by
      have := firstQ (a := a) (r := |a|) (z := a * x - p.x2) le_rfl f8 (w := fl32 (fl32 (a * fl32 (x + p.y2)) - p.x2))
        (E := (1 - |a|) * D) (le_of_eq_of_le (congrArg abs (by ring)) n) le_rfl
      rw [f2]
      convert this using 3; ring
    refine ⟨⟨rfl, f1, f9, f3, ?_, f5, k, f7⟩, k⟩
    show |a * (x + c.y2) - c.x2| ≤ 2 * Y
    have k1 : |a * (x + c.y2)| ≤ |a| * (B + 2 * Y) := by
      rw [abs_mul]; exact mul_le_mul_of_nonneg_left (absAdd f9 f6) (abs_nonneg _)
    refine (absSub k1 (by rw [f2]; exact f4 : |c.x2| ≤ B)).trans ?_
    rw [eY]
    nlinarith [abs_nonneg a, mul_nonneg (abs_nonneg a) Y0, mul_nonneg (mul_nonneg (abs_nonneg a) Y0) p0.le]
  · simp [Fx.Poly.init, B0, Y0, D0]

/-- The hypotheses are met by usual settings: a leaky integrator and a DC blocker with coefficient `0.995` (as a fraction of
`2^24`), and the moving average of 9 samples. -/
example : 5 * (1 / 2 ^ 24) ≤ 1 - (16693330 / 2 ^ 24 : ℚ) ∧ IsFloat (16693330 / 2 ^ 24) ∧ (5 * (1 / 2 ^ 24) : ℚ) ≤ 1 - |(4 / 5 : ℚ)| :=
  ⟨by norm_num, ⟨16693330, -24, by norm_num, by norm_num, by norm_num⟩, by norm_num [abs_of_pos]⟩

end Verif
