import Verif.Model.Float32
import Verif.Props.Tone
import Verif.Proof.Rounding
/-!
# Property C97 in single precision
-/
namespace Verif
open FloatOps Rounding

/-- Specification: sample `x` as the comparator of the detector sees it, offset by half the hysteresis (rounded). -/
def offset32 (hyst x : ℚ) : ℚ := fl32 (x + fl32 (-hyst / 2))

/-- As `PulseTrain`, in terms of the offset samples. -/
structure PulseTrain32 (x : Nat → ℚ) (hyst : ℚ) (N r w : Nat) : Prop where
  periodic : ∀ t, x (t + N) = x t
  gap : 1 ≤ r
  pulse : 1 ≤ w
  fits : r + w < N
  low : ∀ i, i < r → offset32 hyst (x i) ≤ 0
  rise : 0 < offset32 hyst (x r)
  high : ∀ i, r ≤ i → i < r + w → -hyst ≤ offset32 hyst (x i)
  fall : offset32 hyst (x (r + w)) < -hyst
  low2 : ∀ i, r + w ≤ i → i < N → offset32 hyst (x i) ≤ 0

theorem lit32_int (i : Int) (h : |i| ≤ 2 ^ 24) : fl32 (i : ℚ) = i := fl32_lawful.fix _ (rep_int (by norm_num) (by exact_mod_cast h))

theorem f32_l0 : (lit 0 : F32).val = 0 := by
  show fl32 0 = 0; exact fl32_lawful.zero

theorem f32_two : (lit 2 : F32).val = 2 := by
  show fl32 2 = 2
  have := lit32_int 2 (by norm_num)
  exact_mod_cast this

theorem f32_lt (a b : F32) : lt a b = true ↔ a.val < b.val := by simp [FloatOps.lt]
theorem f32_lt' (a b : F32) : lt a b = false ↔ b.val ≤ a.val := by simp [FloatOps.lt]

/-- The offset samples of the model. -/
def y32 (x : Nat → ℚ) (hyst : ℚ) (t : Nat) : F32 := add ⟨x t⟩ (div (neg ⟨hyst⟩) (lit 2))

theorem y32_val (x : Nat → ℚ) (hyst : ℚ) (t : Nat) : (y32 x hyst t).val = offset32 hyst (x t) := by
  show fl32 (x t + fl32 (-hyst / (lit 2 : F32).val)) = _
  rw [f32_two, offset32]

theorem PulseTrain32.tone {x : Nat → ℚ} {hyst : ℚ} {N r w : Nat} (h : PulseTrain32 x hyst N r w) :
    Tone (y32 x hyst) (neg ⟨hyst⟩) N r w := by
  have hn : (neg ⟨hyst⟩ : F32).val = -hyst := rfl
  refine ⟨fun t => ?_, h.gap, h.pulse, h.fits, ?_, fun i h1 h2 => ?_, ?_, fun i h1 h2 => ?_⟩
  · rw [y32, y32, h.periodic]
  · rw [f32_lt, f32_l0, y32_val]; exact h.rise
  · right; rw [f32_lt', y32_val, hn]; exact h.high i h1 h2
  · rw [f32_lt, y32_val, hn]; exact h.fall
  · rw [f32_lt', f32_l0, y32_val]
    rcases h2 with h2 | h2
    · exact h.low i h2
    · exact h.low2 i h2 h1

theorem pk32 (y : Nat → F32) (hy : ∀ i, Rep 24 (-149) (y i).val) (r : Nat) (h : 0 < (y r).val) (n : Nat) :
    0 < (pk y r n).val ∧ Rep 24 (-149) (pk y r n).val ∧ (y r).val ≤ (pk y r n).val ∧
      ∀ i, i < n → 0 < (y (r + 1 + i)).val → (y (r + 1 + i)).val ≤ (pk y r n).val := by
  induction n with
  | zero => exact ⟨h, hy r, le_refl _, fun i hi => by omega⟩
  | succ n ih =>
    obtain ⟨h1, h0, h2, h3⟩ := ih
    rw [pk]
    by_cases hp : 0 < (y (r + 1 + n)).val
    · rw [if_pos (by rw [f32_lt, f32_l0]; exact hp), FloatOps.max]
      split
      · rename_i hc
        rw [f32_lt] at hc
        refine ⟨h1, h0, h2, fun i hi hpi => ?_⟩
        rcases Nat.lt_succ_iff_lt_or_eq.1 hi with hlt | rfl
        · exact h3 i hlt hpi
        · exact hc.le
      · rename_i hc
        rw [f32_lt, not_lt] at hc
        refine ⟨hp, hy _, h2.trans hc, fun i hi hpi => ?_⟩
        rcases Nat.lt_succ_iff_lt_or_eq.1 hi with hlt | rfl
        · exact (h3 i hlt hpi).trans hc
        · exact le_refl _
    · rw [if_neg (by rw [f32_lt, f32_l0]; exact hp)]
      refine ⟨h1, h0, h2, fun i hi hpi => ?_⟩
      rcases Nat.lt_succ_iff_lt_or_eq.1 hi with hlt | rfl
      · exact h3 i hlt hpi
      · exact absurd hpi hp

theorem tone_accept32 {y : Nat → F32} (hyr : ∀ i, Rep 24 (-149) (y i).val) {hy : F32} {N r w : Nat} (ht : Tone y hy N r w) :
    Accept y r w (lit 0) ∧ ∀ i, i < N → lt (lit 0) (y i) = true → Accept y r w (y i) := by
  have hup : 0 < (y r).val := by have := ht.up; rwa [f32_lt, f32_l0] at this
  obtain ⟨h1, h0, h2, h3⟩ := pk32 y hyr r hup (w - 1)
  have h6 : fl32 (6 / 10) ≤ 1 := by
    have := fl32_lawful.mono (6 / 10) 1 (by norm_num)
    have h1 := lit32_int 1 (by norm_num)
    push_cast at h1
    rwa [h1] at this
  have acc : ∀ v : F32, 0 ≤ v.val → v.val ≤ (pk y r (w - 1)).val → Accept y r w v := by
    intro v hv hle
    show decide (fl32 (v.val * fl32 (6 / 10)) ≤ _) = true
    rw [decide_eq_true_eq]
    apply fl32_lawful.le_of_rep h0
    refine le_trans ?_ hle
    exact mul_le_of_le_one_right hv h6
  refine ⟨acc _ (by rw [f32_l0]) (by rw [f32_l0]; exact h1.le), fun i hi hpos => ?_⟩
  have hpos' : 0 < (y i).val := by rwa [f32_lt, f32_l0] at hpos
  apply acc _ hpos'.le
  by_cases hin : r ≤ i ∧ i < r + w
  · by_cases hir : i = r
    · rw [hir]; exact h2
    · have := h3 (i - r - 1) (by omega)
      rw [show r + 1 + (i - r - 1) = i by omega] at this
      exact this hpos'
  · have := ht.low i hi (by omega)
    rw [hpos] at this; cases this

theorem reported32 {W : Nat} {y : Nat → F32} {N r w B : Nat} (hN : N ≤ 2 ^ 24) : reported W y N r w B =
    if ∀ k, k < PD.cmpLen W → inPulse N r w (B + k) = inPulse N r w (B + (k + N / 2)) then ⟨⟨-1⟩, ⟨0⟩⟩ else ⟨⟨N⟩, ⟨1⟩⟩ := by
  have z := fl32_lawful.zero
  have one : fl32 1 = 1 := by have := lit32_int 1 (by norm_num); exact_mod_cast this
  have m1 : fl32 (-1) = -1 := by rw [fl32_lawful.neg, one]
  have nn : fl32 (N : ℚ) = N := by
    have := lit32_int N (by rw [abs_of_nonneg (by omega)]; exact_mod_cast hN)
    exact_mod_cast this
  rw [reported]
  have e1 : (PInfo.default : PInfo F32) = ⟨⟨-1⟩, ⟨0⟩⟩ := by
    show (⟨⟨fl32 (-1)⟩, ⟨fl32 0⟩⟩ : PInfo F32) = _
    rw [m1, z]
  rw [e1]
  congr 1
  simp only [FloatOps.sub, FloatOps.mul, FloatOps.add, FloatOps.div, FloatOps.ofInt, FloatOps.lit]
  simp only [sub_self, z, Int.cast_natCast, Int.cast_one, Int.cast_zero, nn, add_zero, one, div_one, zero_mul, sub_zero]

/-- **C97, in single precision.**  As `C97_pulse_train`, with every operation of the detector rounded to binary32: the
reported period is still exactly `N` and the periodicity exactly 1. -/
theorem C97_pulse_train_binary32 (lowest highest : F32) (sps : Nat) (hyst : ℚ) (p0 : PD F32)
    (h0 : PD.mk' lowest highest sps ⟨hyst⟩ = .ok p0) (hw : p0.zc.window ≤ 2 ^ 25) (x : Nat → ℚ) (N r w : Nat)
    (hx : PulseTrain32 x hyst N r w) (h1 : 2 * N ≤ p0.zc.window) (h2 : p0.minPeriod ≤ N)
    (hex : p0.zc.window ≠ 320 ∨ N ≤ 128) (T : Nat) :
    ∃ p ys, runC PD.step p0 ((List.range T).map fun t => (⟨x t⟩ : F32)) = .ok (p, ys) ∧ ys.length = T ∧
      p.fundamental.period.val = (if true ∈ ys then (N : ℚ) else -1) ∧
      p.fundamental.periodicity.val = (if true ∈ ys then 1 else 0) ∧
      (p0.zc.window + w < T → true ∈ ys) := by
  have ht := hx.tone
  have hrep : ∀ i, Rep 24 (-149) (y32 x hyst i).val := fun i => fl32_lawful.rep _
  obtain ⟨a0, a1⟩ := tone_accept32 hrep ht
  obtain ⟨i0, f0⟩ := fresh_inv (N := N) h0 (by omega) ht h2 a0
  have hoff : ∀ t, add (⟨x t⟩ : F32) (div (neg ⟨hyst⟩) (lit 2)) = y32 x hyst t := fun t => rfl
  have hhalf := half_fits (N := N) i0.pinv.bits.ok.even i0.pinv.bits.ok.ge h1 hex
  obtain ⟨p, ys, b, e, l, i, f, g, -⟩ := tone_run ht h1 a0 a1 (fun t => (⟨x t⟩ : F32)) hoff 0 0 i0 T
  have e' := e
  simp only [Nat.zero_add] at e
  have hres : p.fundamental = (if true ∈ ys then ⟨⟨N⟩, ⟨1⟩⟩ else ⟨⟨-1⟩, ⟨0⟩⟩) := by
    split
    · rename_i hm
      obtain ⟨B, -, hr⟩ := g hm
      rw [hr, reported32 (by omega), if_neg (half_differs hx.gap hx.pulse hx.fits B _ hhalf)]
    · rename_i hm
      rw [(f hm).1, f0]
      show (⟨⟨fl32 (-1)⟩, ⟨fl32 0⟩⟩ : PInfo F32) = _
      have one : fl32 1 = 1 := by have := lit32_int 1 (by norm_num); exact_mod_cast this
      rw [fl32_lawful.neg, one, fl32_lawful.zero]
  refine ⟨p, ys, e, l, ?_, ?_, fun hT => ?_⟩
  · rw [hres]; split <;> rfl
  · rw [hres]; split <;> rfl
  · by_contra hm
    have := tone_live ht h1 a0 a1 (fun t => (⟨x t⟩ : F32)) hoff 0 0 i0 T p ys e' hm
    omega

/-! ## The hypotheses are met -/

theorem rep32 (m e : ℤ) (h : |m| ≤ 2 ^ 24) (he : -149 ≤ e) : fl32 (m * (2 : ℚ) ^ e) = m * (2 : ℚ) ^ e :=
  fl32_lawful.fix _ ⟨m, e, h, he, rfl⟩

/-- The detector for 128–2048 Hz at 8192 samples per second, in single precision. -/
theorem mk32 : ∃ p0, PD.mk' (⟨128⟩ : F32) ⟨2048⟩ 8192 ⟨1 / 128⟩ = .ok p0 ∧ p0.zc.window = 128 ∧ p0.minPeriod = 4 := by
  have one : fl32 1 = 1 := by have := lit32_int 1 (by norm_num); exact_mod_cast this
  have two : fl32 2 = 2 := by have := lit32_int 2 (by norm_num); exact_mod_cast this
  have e1 : fl32 (1 / 128) = 1 / 128 := by have := rep32 1 (-7) (by norm_num) (by norm_num); norm_num at this ⊢; exact this
  have e2 : fl32 (1 / 64) = 1 / 64 := by have := rep32 1 (-6) (by norm_num) (by norm_num); norm_num at this ⊢; exact this
  have e3 : fl32 8192 = 8192 := by have := lit32_int 8192 (by norm_num); exact_mod_cast this
  have e4 : fl32 128 = 128 := by have := lit32_int 128 (by norm_num); exact_mod_cast this
  have e5 : fl32 (1 / 2048) = 1 / 2048 := by have := rep32 1 (-11) (by norm_num) (by norm_num); norm_num at this ⊢; exact this
  have e6 : fl32 4 = 4 := by have := lit32_int 4 (by norm_num); exact_mod_cast this
  have e7 : fl32 16 = 16 := by have := lit32_int 16 (by norm_num); exact_mod_cast this
  have w1 : (mul (mul (div (lit 1) ⟨128⟩) (lit 2)) (ofInt (8192 : Nat)) : F32) = ⟨128⟩ := by
    show (⟨fl32 (fl32 (fl32 (fl32 1 / 128) * fl32 2) * fl32 ((8192 : Nat) : Int))⟩ : F32) = _
    rw [one, two, e1, show (1 / 128 * 2 : ℚ) = 1 / 64 by norm_num, e2]
    push_cast
    rw [e3, show (1 / 64 * 8192 : ℚ) = 128 by norm_num, e4]
  have w2 : (mul (div (lit 1) ⟨2048⟩) (ofInt (8192 : Nat)) : F32) = ⟨4⟩ := by
    show (⟨fl32 (fl32 (fl32 1 / 2048) * fl32 ((8192 : Nat) : Int))⟩ : F32) = _
    rw [one, e5]
    push_cast
    rw [e3, show (1 / 2048 * 8192 : ℚ) = 4 by norm_num, e6]
  have w3 : (div ⟨2048⟩ ⟨128⟩ : F32) = ⟨16⟩ := by
    show (⟨fl32 (2048 / 128)⟩ : F32) = _
    rw [show (2048 / 128 : ℚ) = 16 by norm_num, e7]
  have t1 : toU64 (⟨128⟩ : F32) = .ok 128 := by decide +kernel
  have t2 : toU64 (⟨4⟩ : F32) = .ok 4 := by decide +kernel
  have t3 : toI32 (⟨16⟩ : F32) = .ok 16 := by decide +kernel
  have t4 : ¬ (le (⟨2048⟩ : F32) ⟨128⟩ = true) := by decide +kernel
  rw [PD.mk', w1, w2, w3, t1, PD.ok_bind, t2, PD.ok_bind, t3, PD.ok_bind, if_neg t4]
  exact ⟨_, rfl, rfl, rfl⟩

theorem rect_train32 {N r w : Nat} (hr : 1 ≤ r) (hw : 1 ≤ w) (h : r + w < N) : PulseTrain32 (rect N r w) (1 / 128) N r w := by
  have e1 : fl32 (-(1 / 128) / 2) = -(1 / 256) := by
    have := rep32 (-1) (-8) (by norm_num) (by norm_num); norm_num at this ⊢; exact this
  have e2 : offset32 (1 / 128) 1 = 255 / 256 := by
    rw [offset32, e1]
    have := rep32 255 (-8) (by norm_num) (by norm_num); norm_num at this ⊢; exact this
  have e3 : offset32 (1 / 128) (-1) = -(257 / 256) := by
    rw [offset32, e1]
    have := rep32 (-257) (-8) (by norm_num) (by norm_num); norm_num at this ⊢; exact this
  have hin : ∀ i, i < N → (inPulse N r w i = true ↔ r ≤ i ∧ i < r + w) := by
    intro i hi; rw [inPulse, Nat.mod_eq_of_lt hi, decide_eq_true_eq]
  have hi1 : ∀ i, i < N → r ≤ i → i < r + w → rect N r w i = 1 := by
    intro i hi a b; rw [rect, if_pos ((hin i hi).2 ⟨a, b⟩)]
  have hi0 : ∀ i, i < N → (i < r ∨ r + w ≤ i) → rect N r w i = -1 := by
    intro i hi a; rw [rect, if_neg]; rw [hin i hi]; omega
  refine ⟨fun t => by rw [rect, rect, inPulse_add], hr, hw, h, fun i hi => ?_, ?_, fun i a b => ?_, ?_, fun i a b => ?_⟩
  · rw [hi0 i (by omega) (Or.inl hi), e3]; norm_num
  · rw [hi1 r (by omega) (le_refl _) (by omega), e2]; norm_num
  · rw [hi1 i (by omega) a b, e2]; norm_num
  · rw [hi0 (r + w) h (Or.inr (le_refl _)), e3]; norm_num
  · rw [hi0 i b (Or.inr a), e3]; norm_num

example : ∃ p0, PD.mk' (⟨128⟩ : F32) ⟨2048⟩ 8192 ⟨1 / 128⟩ = .ok p0 ∧ ∀ T, 150 < T →
    ∃ p ys, runC PD.step p0 ((List.range T).map fun t => (⟨rect 50 7 20 t⟩ : F32)) = .ok (p, ys) ∧ p.fundamental.period.val = 50 := by
  obtain ⟨p0, e, hw, hm⟩ := mk32
  refine ⟨p0, e, fun T hT => ?_⟩
  obtain ⟨p, ys, e1, -, f, -, lv⟩ := C97_pulse_train_binary32 ⟨128⟩ ⟨2048⟩ 8192 (1 / 128) p0 e (by omega) (rect 50 7 20) 50 7 20
    (rect_train32 (by omega) (by omega) (by omega)) (by omega) (by omega) (by omega) T
  exact ⟨p, ys, e1, by rw [f, if_pos (lv (by omega))]; norm_num⟩
end Verif
