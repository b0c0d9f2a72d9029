import Verif.Props.RoundFilter
/-!
# C69: the Hilbert transformer in `float` arithmetic
-/
namespace Verif
open Rounding RoundFilter

namespace RoundFilter

/-- The rounded and the exact polyphase all-pass side by side: inputs bounded by `B` and apart by at most `E`; `T` is what the stage itself adds. -/
structure PolyRel (a B E T : ℚ) (p c : Fx.Poly ℚ) : Prop where
  bx1 : |c.x1| ≤ B
  bx2 : |c.x2| ≤ B
  ex1 : |p.x1 - c.x1| ≤ E
  ex2 : |p.x2 - c.x2| ≤ E
  by1 : |c.y1 - a * c.x1| ≤ (1 + |a|) * B
  by2 : |c.y2 - a * c.x2| ≤ (1 + |a|) * B
  ey1 : |(p.y1 - c.y1) - a * (p.x1 - c.x1)| ≤ (1 + |a|) * E + T
  ey2 : |(p.y2 - c.y2) - a * (p.x2 - c.x2)| ≤ (1 + |a|) * E + T

theorem PolyRel.init {a B E T : ℚ} (hB : 0 ≤ B) (hE : 0 ≤ E) (hT : 0 ≤ T) : PolyRel a B E T Fx.Poly.init Fx.Poly.init := by
  have := abs_nonneg a
  constructor <;> simp only [Fx.Poly.init, mul_zero, sub_self, abs_zero] <;> positivity

/-- One all-pass step: `v = y - a x` obeys `v' = a v - (1 - a²) x`. -/
theorem ap_step {a y2 x2 x v X r : ℚ} (ha : |a| ≤ 1) (hv : |y2 - a * x2| ≤ (1 + |a|) * X + v) (hx : |x2| ≤ X) (hr : |r| ≤ (1 - |a|) * v) :
    |(a * (x + y2) - x2 + r) - a * x| ≤ (1 + |a|) * X + v := by
  have e : (a * (x + y2) - x2 + r) - a * x = a * (y2 - a * x2) + -(1 - a ^ 2) * x2 + r := by ring
  rw [e]
  have a0 := abs_nonneg a
  have q : |-(1 - a ^ 2)| = (1 - |a|) * (1 + |a|) := by
    rw [abs_neg, abs_of_nonneg (by rw [← sq_abs]; nlinarith), ← sq_abs]; ring
  have h1 : |a * (y2 - a * x2)| ≤ |a| * ((1 + |a|) * X + v) := by rw [abs_mul]; exact mul_le_mul_of_nonneg_left hv a0
  have h2 : |-(1 - a ^ 2) * x2| ≤ (1 - |a|) * (1 + |a|) * X := by
    rw [abs_mul, q]; exact mul_le_mul_of_nonneg_left hx (mul_nonneg (by linarith) (by linarith))
  refine (absAdd (absAdd h1 h2) hr).trans (le_of_eq (by ring))

theorem out_bound {a y x v X : ℚ} (hv : |y - a * x| ≤ (1 + |a|) * X + v) (hx : |x| ≤ X) : |y| ≤ (1 + 2 * |a|) * X + v := by
  have e : y = (y - a * x) + a * x := by ring
  have h : |a * x| ≤ |a| * X := by rw [abs_mul]; exact mul_le_mul_of_nonneg_left hx (abs_nonneg a)
  rw [e]
  exact (absAdd hv h).trans (le_of_eq (by ring))

theorem PolyRel.step {a B E T : ℚ} {p c : Fx.Poly ℚ} (h : PolyRel a B E T p c) (ha : |a| ≤ 1)
    (hT : 402 / 100 * uq * (B + E) + 302 / 100 * uq * (3 * (B + E) + T) + 4 * eq ≤ (1 - |a|) * T)
    {xh x : ℚ} (hx : |x| ≤ B) (he : |xh - x| ≤ E) :
    PolyRel a B E T (polyphase fl32 a p xh).1 (Fx.Poly.feed a c x).1 ∧
    |(Fx.Poly.feed a c x).2| ≤ (1 + 2 * |a|) * B ∧ |(polyphase fl32 a p xh).2 - (Fx.Poly.feed a c x).2| ≤ (1 + 2 * |a|) * E + T := by
  have B0 : 0 ≤ B := (abs_nonneg _).trans hx
  have E0 : 0 ≤ E := (abs_nonneg _).trans he
  have a0 := abs_nonneg a
  have cy2 : |c.y2| ≤ (1 + 2 * |a|) * B := by
    have := out_bound (v := 0) (le_of_le_of_eq h.by2 (by ring)) h.bx2
    linarith
  have py2 : |p.y2 - c.y2| ≤ (1 + 2 * |a|) * E + T := out_bound h.ey2 h.ex2
  have My : |p.y2| ≤ 3 * (B + E) + T := (bound_of_close cy2 py2).trans (by nlinarith)
  have n := (poly_noise fl32_lawful ha My (bound_of_close hx he) (bound_of_close h.bx2 h.ex2)).trans hT
  obtain ⟨r, hr⟩ : ∃ r, r = fl32 (fl32 (a * fl32 (xh + p.y2)) - p.x2) - (a * (xh + p.y2) - p.x2) := ⟨_, rfl⟩
  rw [← hr] at n
  have o1 : |(a * (x + c.y2) - c.x2) - a * x| ≤ (1 + |a|) * B := by
    have := ap_step (x := x) (v := 0) (r := 0) ha (le_of_le_of_eq h.by2 (by ring)) h.bx2 (by simp)
    rw [add_zero, add_zero] at this; exact this
  have o2 : |(fl32 (fl32 (a * fl32 (xh + p.y2)) - p.x2) - (a * (x + c.y2) - c.x2)) - a * (xh - x)| ≤ (1 + |a|) * E + T := by
    have := ap_step (x := xh - x) (y2 := p.y2 - c.y2) (x2 := p.x2 - c.x2) ha h.ey2 h.ex2 n
    rw [hr] at this
    convert this using 2; ring
  have o1' : |a * (x + c.y2) - c.x2| ≤ (1 + 2 * |a|) * B := by
    have := out_bound (v := 0) (le_of_le_of_eq o1 (by ring)) hx
    linarith
  exact ⟨⟨hx, h.bx1, he, h.ex1, o1, h.by1, o2, h.ey1⟩, o1', out_bound o2 he⟩

/-- The same in units: signal `b B`, error `e W` with `W = u B + η`. -/
theorem PolyRel.unit {a B b e t c : ℚ} {p q : Fx.Poly ℚ} (B0 : 0 ≤ B) (h : PolyRel a (b * B) (e * (uq * B + eq)) (t * (uq * B + eq)) p q)
    (hb : 1 ≤ b) (e0 : 0 ≤ e) (t0 : 0 ≤ t) (t1 : 4 * uq * t ≤ 9 / 10) (a1 : |a| ≤ 1) (ha : (14 * b + 14 * uq * e) ≤ (1 - |a|) * t)
    (hc : 1 + 2 * |a| ≤ c)
    {xh x : ℚ} (hx : |x| ≤ b * B) (he : |xh - x| ≤ e * (uq * B + eq)) :
    PolyRel a (b * B) (e * (uq * B + eq)) (t * (uq * B + eq)) (polyphase fl32 a p xh).1 (Fx.Poly.feed a q x).1 ∧
    |(Fx.Poly.feed a q x).2| ≤ c * b * B ∧ |(polyphase fl32 a p xh).2 - (Fx.Poly.feed a q x).2| ≤ (c * e + t) * (uq * B + eq) := by
  have hq := eq_pos
  have hu : (0 : ℚ) < uq := by norm_num [uq]
  have W0 : 0 ≤ uq * B + eq := by positivity
  have := h.step a1 (by
    have h1 : (14 * b + 14 * uq * e) * (uq * B + eq) ≤ (1 - |a|) * t * (uq * B + eq) := mul_le_mul_of_nonneg_right ha W0
    have h2 : 4 * (uq * t * (uq * B + eq)) ≤ 9 / 10 * (uq * B + eq) :=
      le_of_eq_of_le (by ring) (mul_le_mul_of_nonneg_right t1 W0)
    have h3 : uq * B ≤ uq * (b * B) := mul_le_mul_of_nonneg_left (by nlinarith) hu.le
    have h4 : 0 ≤ uq * e * (uq * B + eq) := by positivity
    have h5 : eq ≤ b * eq := by nlinarith
    have h6 : 0 ≤ uq * t * (uq * B + eq) := by positivity
    have h7 : (14 * b + 14 * uq * e) * (uq * B + eq) = 14 * (uq * (b * B)) + 14 * (b * eq) + 14 * (uq * e * (uq * B + eq)) := by ring
    have h8 : 402 / 100 * uq * (b * B + e * (uq * B + eq)) + 302 / 100 * uq * (3 * (b * B + e * (uq * B + eq)) + t * (uq * B + eq)) + 4 * eq
      = 1308 / 100 * (uq * (b * B)) + 1308 / 100 * (uq * e * (uq * B + eq)) + 302 / 100 * (uq * t * (uq * B + eq)) + 4 * eq := by ring
    rw [h8, show (1 - |a|) * (t * (uq * B + eq)) = (1 - |a|) * t * (uq * B + eq) by ring]
    rw [h7] at h1
    generalize uq * t * (uq * B + eq) = z1 at *
    generalize uq * e * (uq * B + eq) = z2 at *
    generalize (1 - |a|) * t * (uq * B + eq) = z3 at *
    generalize uq * (b * B) = z4 at *
    generalize uq * B = z5 at *
    generalize b * eq = z6 at *
    generalize eq = z7 at *
    linarith) hx he
  refine ⟨this.1, this.2.1.trans ?_, this.2.2.trans ?_⟩
  · rw [mul_assoc]; exact mul_le_mul_of_nonneg_right hc (by nlinarith)
  · have := mul_le_mul_of_nonneg_right hc (mul_nonneg e0 W0)
    nlinarith

/-- Stage constants used below: `b` signal gain so far, `e` error so far, `t` error of the stage, `c` bound of `1 + 2|a|`. -/
structure HilRel (k : Fin 8 → ℚ) (B : ℚ) (p q : Fx.Hilbert ℚ) : Prop where
  a : PolyRel (k 0) (1 * B) (0 * (uq * B + eq)) (26.9 * (uq * B + eq)) p.a q.a
  b : PolyRel (k 1) (1.96 * 1 * B) ((1.96 * 0 + 26.9) * (uq * B + eq)) (222 * (uq * B + eq)) p.b q.b
  c : PolyRel (k 2) (2.76 * (1.96 * 1) * B) ((2.76 * (1.96 * 0 + 26.9) + 222) * (uq * B + eq)) (3250 * (uq * B + eq)) p.c q.c
  d : PolyRel (k 3) (2.954 * (2.76 * (1.96 * 1)) * B) ((2.954 * (2.76 * (1.96 * 0 + 26.9) + 222) + 3250) * (uq * B + eq)) (90000 * (uq * B + eq)) p.d q.d
  dly : |q.dly| ≤ 48 * B ∧ |p.dly - q.dly| ≤ 102500 * (uq * B + eq)
  w : PolyRel (k 4) (1 * B) (0 * (uq * B + eq)) (16.8 * (uq * B + eq)) p.w q.w
  x : PolyRel (k 5) (1.33 * 1 * B) ((1.33 * 0 + 16.8) * (uq * B + eq)) (70 * (uq * B + eq)) p.x q.x
  y : PolyRel (k 6) (2.47 * (1.33 * 1) * B) ((2.47 * (1.33 * 0 + 16.8) + 70) * (uq * B + eq)) (850 * (uq * B + eq)) p.y q.y
  z : PolyRel (k 7) (2.892 * (2.47 * (1.33 * 1)) * B) ((2.892 * (2.47 * (1.33 * 0 + 16.8) + 70) + 850) * (uq * B + eq)) (14300 * (uq * B + eq)) p.z q.z

end RoundFilter

/-- **C69.** The Hilbert transformer in `float` arithmetic, with any coefficients within `1e-7` of those written in the code (their `float`
values are): for every signal bounded by `B`, of any length, each of the two outputs from rest is within `0.0062 B + 2^-133` of the exact filter with the same coefficients
(the second one within `0.0011 B + 2^-133`). -/
theorem C69_hilbert (k : Fin 8 → ℚ) (hk : ∀ i, |k i - Fx.hilbertCoefs i| ≤ 1 / 10 ^ 7) (B : ℚ) (xs : List ℚ) (hx : ∀ x ∈ xs, |x| ≤ B) :
    List.Forall₂ (fun yh y => |yh.1 - y.1| ≤ 62 / 10000 * B + 1 / 2 ^ 133 ∧ |yh.2 - y.2| ≤ 11 / 10000 * B + 1 / 2 ^ 133)
      (outputs (RoundFilter.hilbert fl32 k) Fx.Hilbert.init xs) (outputs (Fx.Hilbert.feed k) Fx.Hilbert.init xs) := by
  cases xs with
  | nil => exact .nil
  | cons x0 xs0 =>
  have B0 : 0 ≤ B := (abs_nonneg _).trans (hx x0 (by simp))
  generalize x0 :: xs0 = xs at *
  have hq := eq_pos
  have W0 : 0 ≤ uq * B + eq := by have : (0 : ℚ) < uq := by norm_num [uq]
                                  positivity
  have kb : ∀ (i : Fin 8) (v m : ℚ), Fx.hilbertCoefs i = v → v + 1 / 10 ^ 7 ≤ m → 1 / 10 ^ 7 ≤ v → |k i| ≤ m := by
    intro i v m h0 h1 h2
    have := abs_le.1 (hk i)
    rw [h0] at this
    rw [abs_le]; constructor <;> linarith
  have k0 := kb 0 0.47940086558884 0.479401 rfl (by norm_num) (by norm_num)
  have k1 := kb 1 0.87621849353931 0.876219 rfl (by norm_num) (by norm_num)
  have k2 := kb 2 0.976597589508199 0.976598 rfl (by norm_num) (by norm_num)
  have k3 := kb 3 0.997499255935549 0.9974994 rfl (by norm_num) (by norm_num)
  have k4 := kb 4 0.161758498367701 0.161759 rfl (by norm_num) (by norm_num)
  have k5 := kb 5 0.733028932341491 0.733030 rfl (by norm_num) (by norm_num)
  have k6 := kb 6 0.945349700329113 0.945350 rfl (by norm_num) (by norm_num)
  have k7 := kb 7 0.990599156684529 0.990600 rfl (by norm_num) (by norm_num)
  refine outputs_forall₂ _ _ (HilRel k B) (fun x x' => x' = x ∧ |x| ≤ B) _ ?_ _ _ ?_ _ _ (same hx)
  · rintro p q _ x h ⟨rfl, f⟩
    have s0 := h.a.unit (c := 1.96) B0 (by norm_num) (by norm_num) (by norm_num) (by norm_num [uq]) (k0.trans (by norm_num))
      (by unfold uq; linarith) (by linarith) (xh := x) (x := x) (by rw [one_mul]; exact f) (by simp)
    have s1 := h.b.unit (c := 2.76) B0 (by norm_num) (by norm_num) (by norm_num) (by norm_num [uq]) (k1.trans (by norm_num))
      (by unfold uq; linarith) (by linarith) s0.2.1 s0.2.2
    have s2 := h.c.unit (c := 2.954) B0 (by norm_num) (by norm_num) (by norm_num) (by norm_num [uq]) (k2.trans (by norm_num))
      (by unfold uq; linarith) (by linarith) s1.2.1 s1.2.2
    have s3 := h.d.unit (c := 2.996) B0 (by norm_num) (by norm_num) (by norm_num) (by norm_num [uq]) (k3.trans (by norm_num))
      (by unfold uq; linarith) (by linarith) s2.2.1 s2.2.2
    have t0 := h.w.unit (c := 1.33) B0 (by norm_num) (by norm_num) (by norm_num) (by norm_num [uq]) (k4.trans (by norm_num))
      (by unfold uq; linarith) (by linarith) (xh := x) (x := x) (by rw [one_mul]; exact f) (by simp)
    have t1 := h.x.unit (c := 2.47) B0 (by norm_num) (by norm_num) (by norm_num) (by norm_num [uq]) (k5.trans (by norm_num))
      (by unfold uq; linarith) (by linarith) t0.2.1 t0.2.2
    have t2 := h.y.unit (c := 2.892) B0 (by norm_num) (by norm_num) (by norm_num) (by norm_num [uq]) (k6.trans (by norm_num))
      (by unfold uq; linarith) (by linarith) t1.2.1 t1.2.2
    have t3 := h.z.unit (c := 2.982) B0 (by norm_num) (by norm_num) (by norm_num) (by norm_num [uq]) (k7.trans (by norm_num))
      (by unfold uq; linarith) (by linarith) t2.2.1 t2.2.2
    refine ⟨⟨s0.1, s1.1, s2.1, s3.1, ⟨s3.2.1.trans ?_, s3.2.2.trans ?_⟩, t0.1, t1.1, t2.1, t3.1⟩, h.dly.2.trans ?_, t3.2.2.trans ?_⟩
    · exact mul_le_mul_of_nonneg_right (by norm_num) B0
    · exact mul_le_mul_of_nonneg_right (by norm_num) W0
    · have e : eq = 1 / 2 ^ 17 * (1 / 2 ^ 133) := by norm_num [eq]
      rw [e]; unfold uq
      have : (0 : ℚ) < 1 / 2 ^ 133 := by positivity
      generalize (1 : ℚ) / 2 ^ 133 = z at *
      linarith
    · have e : eq = 1 / 2 ^ 17 * (1 / 2 ^ 133) := by norm_num [eq]
      rw [e]; unfold uq
      have : (0 : ℚ) < 1 / 2 ^ 133 := by positivity
      generalize (1 : ℚ) / 2 ^ 133 = z at *
      linarith
  · have n : ∀ c : ℚ, 0 ≤ c → 0 ≤ c * (uq * B + eq) := fun c h => mul_nonneg h W0
    have m : ∀ c : ℚ, 0 ≤ c → 0 ≤ c * B := fun c h => mul_nonneg h B0
    refine ⟨.init (m _ ?_) (n _ ?_) (n _ ?_), .init (m _ ?_) (n _ ?_) (n _ ?_), .init (m _ ?_) (n _ ?_) (n _ ?_), .init (m _ ?_) (n _ ?_) (n _ ?_), ⟨?_, ?_⟩,
      .init (m _ ?_) (n _ ?_) (n _ ?_), .init (m _ ?_) (n _ ?_) (n _ ?_), .init (m _ ?_) (n _ ?_) (n _ ?_), .init (m _ ?_) (n _ ?_) (n _ ?_)⟩
    case refine_13 => show |(0 : ℚ)| ≤ _; rw [abs_zero]; exact m _ (by norm_num)
    case refine_14 => show |(0 : ℚ) - 0| ≤ _; rw [sub_zero, abs_zero]; exact n _ (by norm_num)
    all_goals norm_num

/-- The hypothesis on the coefficients is met by the values written in the code. -/
example : ∀ i, |Fx.hilbertCoefs i - Fx.hilbertCoefs i| ≤ 1 / 10 ^ 7 := fun i => by simp

end Verif
