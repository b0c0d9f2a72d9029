import Verif.Model.Follower
import Verif.Proof.FastExp
import Verif.Props.Envelope
/-!
# Envelope followers and one-pole smoothers: bounds, rounding included
-/
namespace Verif
open Rounding Follow

namespace Rounding.Lawful
variable {p : ℕ} {emin : ℤ} {fl : ℚ → ℚ} (L : Lawful p emin fl)
include L

/-- One rounded smoothing step ends between the sample and the old value. -/
theorem approach_between (hp : 0 < p) {s c y : ℚ} (hs : Rep p emin s) (hc : Rep p emin c) (hy : Rep p emin y)
    (h0 : 0 ≤ c) (h1 : c < 1) :
    min s y ≤ fl (s + fl (c * fl (y - s))) ∧ fl (s + fl (c * fl (y - s))) ≤ max s y := by
  rcases le_total s y with h | h
  · rw [min_eq_left h, max_eq_right h]
    refine ⟨?_, L.approach_le hp hs hc hy h0 h1 h⟩
    have : 0 ≤ fl (c * fl (y - s)) := L.nonneg (mul_nonneg h0 (L.nonneg (by linarith)))
    exact L.ge_of_rep hs (by linarith)
  · rw [min_eq_right h, max_eq_left h]
    refine ⟨?_, L.approach_le_target hs h0 h⟩
    have := L.approach_le hp (rep_neg hs) hc (rep_neg hy) h0 h1 (by linarith)
    have e1 : fl (-y - -s) = -fl (y - s) := by rw [← L.neg]; congr 1; ring
    rw [e1, mul_neg, L.neg, show -s + -fl (c * fl (y - s)) = -(s + fl (c * fl (y - s))) by ring, L.neg] at this
    linarith
end Rounding.Lawful

/-- A float. -/
abbrev IsFloat (x : ℚ) : Prop := Rep 24 (-149) x

theorem isFloat_zero : IsFloat 0 := ⟨0, 0, by norm_num, by norm_num, by norm_num⟩

namespace Follow
variable {fl fd : ℚ → ℚ}

theorem env_feed (L : Lawful 24 (-149) fl) {e : EnvFollower} (ha : Env.IsRate e.attack) (hr : Env.IsRate e.release)
    (hy : IsFloat e.y) {s : ℚ} (hs : IsFloat s) :
    min s e.y ≤ (e.feed fl s).2 ∧ (e.feed fl s).2 ≤ max s e.y ∧ IsFloat (e.feed fl s).2 ∧
    (e.feed fl s).1 = { e with y := (e.feed fl s).2 } := by
  have hc : Env.IsRate (if s > e.y then e.attack else e.release) := by split_ifs <;> assumption
  have := L.approach_between (by norm_num) hs hc.1 hy hc.2.1 hc.2.2
  exact ⟨this.1, this.2, L.rep _, rfl⟩

/-- The state reached after `n` samples remembers the last output. -/
theorem env_hist (L : Lawful 24 (-149) fl) (e : EnvFollower) (ha : Env.IsRate e.attack) (hr : Env.IsRate e.release)
    (lo hi : ℚ) (hy : IsFloat e.y) (h0 : lo ≤ e.y) (h1 : e.y ≤ hi) (xs : List ℚ)
    (hx : ∀ x ∈ xs, IsFloat x ∧ lo ≤ x ∧ x ≤ hi) :
    ∀ y ∈ outputs (EnvFollower.feed fl) e xs, lo ≤ y ∧ y ≤ hi := by
  induction xs generalizing e with
  | nil => simp [outputs]
  | cons x xs ih =>
    have hx0 := hx x (by simp)
    have hf := env_feed L ha hr hy hx0.1
    have hl : lo ≤ (e.feed fl x).2 := le_trans (le_min hx0.2.1 h0) hf.1
    have hh : (e.feed fl x).2 ≤ hi := le_trans hf.2.1 (max_le hx0.2.2 h1)
    intro y hy'
    simp only [outputs, List.mem_cons] at hy'
    rcases hy' with rfl | hy'
    · exact ⟨hl, hh⟩
    · refine ih (e.feed fl x).1 ?_ ?_ ?_ ?_ ?_ (fun z hz => hx z (by simp [hz])) y hy'
      all_goals rw [hf.2.2.2]
      · exact ha
      · exact hr
      · exact hf.2.2.1
      · exact hl
      · exact hh
end Follow

/-- **C44** (IEEE rounding included) `envelope_follower`: whatever the samples, every output stays within any range
`[lo, hi]` containing all the samples and the initial value 0. -/
theorem C44_follower_hull (attack release : ℚ) (sps : Nat) (ha : 1255 / 1000 ≤ sps * attack) (hr : 1255 / 1000 ≤ sps * release)
    (lo hi : ℚ) (h0 : lo ≤ 0) (h1 : 0 ≤ hi) (xs : List ℚ) (hx : ∀ x ∈ xs, IsFloat x ∧ lo ≤ x ∧ x ≤ hi) :
    ∀ y ∈ outputs (EnvFollower.feed fl32) (EnvFollower.mk' fl32 fl64 attack release sps) xs, lo ≤ y ∧ y ≤ hi :=
  env_hist fl32_lawful _ (Env.coef_rate fl32_lawful fl64_lawful ha) (Env.coef_rate fl32_lawful fl64_lawful hr) lo hi
    isFloat_zero h0 h1 xs hx

/-- **C44** (IEEE rounding included) One call moves the output towards the sample and never past it: for any state
reached, the new output lies between the sample and the previous output. -/
theorem C44_follower_between (attack release : ℚ) (sps : Nat) (ha : 1255 / 1000 ≤ sps * attack)
    (hr : 1255 / 1000 ≤ sps * release) (xs : List ℚ) (hx : ∀ x ∈ xs, IsFloat x) (s : ℚ) (hs : IsFloat s) :
    let e := final (EnvFollower.feed fl32) (EnvFollower.mk' fl32 fl64 attack release sps) xs
    min s e.y ≤ (e.feed fl32 s).2 ∧ (e.feed fl32 s).2 ≤ max s e.y ∧ (e.feed fl32 s).1.y = (e.feed fl32 s).2 := by
  have key : ∀ (xs : List ℚ) (e : EnvFollower), Env.IsRate e.attack → Env.IsRate e.release → IsFloat e.y →
      (∀ x ∈ xs, IsFloat x) → let e' := final (EnvFollower.feed fl32) e xs
      Env.IsRate e'.attack ∧ Env.IsRate e'.release ∧ IsFloat e'.y := by
    intro xs
    induction xs with
    | nil => intro e h1 h2 h3 _; exact ⟨h1, h2, h3⟩
    | cons x xs ih =>
      intro e h1 h2 h3 hx
      exact ih (e.feed fl32 x).1 h1 h2 (fl32_lawful.rep _) (fun z hz => hx z (by simp [hz]))
  have hk := key xs (EnvFollower.mk' fl32 fl64 attack release sps) (Env.coef_rate fl32_lawful fl64_lawful ha)
    (Env.coef_rate fl32_lawful fl64_lawful hr) isFloat_zero hx
  intro e
  have := env_feed fl32_lawful (e := e) hk.1 hk.2.1 hk.2.2 hs
  exact ⟨this.1, this.2.1, rfl⟩

/-- **C44** (IEEE rounding included) `peak_envelope_follower`: at every call the output is at least the current
sample, and at most the larger of 0 and the largest sample so far; and it never rises except onto a sample. -/
theorem C44_peak (release : ℚ) (sps : Nat) (hr : 1255 / 1000 ≤ sps * release) (xs : List ℚ) (hx : ∀ x ∈ xs, IsFloat x)
    (s : ℚ) (hs : IsFloat s) :
    let e := final (PeakFollower.feed fl32) (PeakFollower.mk' fl32 fl64 release sps) xs
    s ≤ (e.feed fl32 s).2 ∧ (e.feed fl32 s).2 ≤ max s e.y ∧ (e.feed fl32 s).1.y = (e.feed fl32 s).2 ∧
    ∀ hi, 0 ≤ hi → (∀ x ∈ xs, x ≤ hi) → s ≤ hi → (e.feed fl32 s).2 ≤ hi := by
  have one : ∀ (e : PeakFollower) (s : ℚ), Env.IsRate e.release → IsFloat e.y → IsFloat s →
      s ≤ (e.feed fl32 s).2 ∧ (e.feed fl32 s).2 ≤ max s e.y ∧ IsFloat (e.feed fl32 s).2 := by
    intro e s h1 h2 h3
    unfold PeakFollower.feed
    simp only
    split_ifs with hc
    · exact ⟨le_rfl, le_max_left _ _, h3⟩
    · have := fl32_lawful.approach_between (by norm_num) h3 h1.1 h2 h1.2.1 h1.2.2
      rw [min_eq_left (not_lt.1 hc)] at this
      exact ⟨this.1, this.2, fl32_lawful.rep _⟩
  have key : ∀ (xs : List ℚ) (e : PeakFollower), Env.IsRate e.release → IsFloat e.y →
      (∀ x ∈ xs, IsFloat x) → let e' := final (PeakFollower.feed fl32) e xs
      Env.IsRate e'.release ∧ IsFloat e'.y ∧ ∀ hi, e.y ≤ hi → (∀ x ∈ xs, x ≤ hi) → e'.y ≤ hi := by
    intro xs
    induction xs with
    | nil => intro e h1 h3 _; exact ⟨h1, h3, fun hi h _ => h⟩
    | cons x xs ih =>
      intro e h1 h3 hx
      have ho := one e x h1 h3 (hx x (by simp))
      have := ih (e.feed fl32 x).1 h1 ho.2.2 (fun z hz => hx z (by simp [hz]))
      refine ⟨this.1, this.2.1, ?_⟩
      intro hi hy hxs
      refine this.2.2 hi ?_ (fun z hz => hxs z (by simp [hz]))
      exact le_trans ho.2.1 (max_le (hxs x (by simp)) hy)
  have hk := key xs (PeakFollower.mk' fl32 fl64 release sps) (Env.coef_rate fl32_lawful fl64_lawful hr)
    isFloat_zero hx
  intro e
  have ho := one e s hk.1 hk.2.1 hs
  refine ⟨ho.1, ho.2.1, rfl, ?_⟩
  intro hi h0 hxs hsi
  exact le_trans ho.2.1 (max_le hsi (hk.2.2 hi h0 hxs))

/-- **C44** (exact arithmetic) When the signal stays at `s` below the envelope, the distance to it decays
geometrically with the release coefficient; when it stays above the follower's output, with the attack
coefficient; the peak follower jumps up at once. -/
theorem C44_release_curve (e : EnvFollower) (p : PeakFollower) (s : ℚ) (n : Nat)
    (hr : 0 ≤ e.release) (ha : 0 < e.attack) (hp : 0 ≤ p.release) :
    (s ≤ e.y → (final (EnvFollower.feed id) e (List.replicate n s)).y = s + e.release ^ n * (e.y - s)) ∧
    (e.y < s → (final (EnvFollower.feed id) e (List.replicate n s)).y = s - e.attack ^ n * (s - e.y)) ∧
    (s ≤ p.y → (final (PeakFollower.feed id) p (List.replicate n s)).y = s + p.release ^ n * (p.y - s)) ∧
    (p.y < s → (final (PeakFollower.feed id) p (List.replicate (n + 1) s)).y = s) := by
  have k1 : ∀ (n : Nat) (e : EnvFollower), 0 ≤ e.release → s ≤ e.y →
      (final (EnvFollower.feed id) e (List.replicate n s)).y = s + e.release ^ n * (e.y - s) := by
    intro n
    induction n with
    | zero => intro e _ _; simp [final]
    | succ n ih =>
      intro e hr h
      simp only [List.replicate_succ, final]
      have hf : (e.feed id s).1 = { e with y := s + e.release * (e.y - s) } := by
        simp [EnvFollower.feed, not_lt.2 h]
      rw [hf, ih { e with y := s + e.release * (e.y - s) } hr (by simp only; nlinarith)]
      simp only; ring
  have k2 : ∀ (n : Nat) (e : EnvFollower), 0 < e.attack → e.y < s →
      (final (EnvFollower.feed id) e (List.replicate n s)).y = s - e.attack ^ n * (s - e.y) := by
    intro n
    induction n with
    | zero => intro e _ _; simp [final]
    | succ n ih =>
      intro e hr h
      simp only [List.replicate_succ, final]
      have hf : (e.feed id s).1 = { e with y := s + e.attack * (e.y - s) } := by
        simp [EnvFollower.feed, h]
      rw [hf, ih { e with y := s + e.attack * (e.y - s) } hr (by simp only; nlinarith)]
      simp only; ring
  have k3 : ∀ (n : Nat) (e : PeakFollower), 0 ≤ e.release → s ≤ e.y →
      (final (PeakFollower.feed id) e (List.replicate n s)).y = s + e.release ^ n * (e.y - s) := by
    intro n
    induction n with
    | zero => intro e _ _; simp [final]
    | succ n ih =>
      intro e hr h
      simp only [List.replicate_succ, final]
      have hf : (e.feed id s).1 = { e with y := s + e.release * (e.y - s) } := by
        simp [PeakFollower.feed, not_lt.2 h]
      rw [hf, ih { e with y := s + e.release * (e.y - s) } hr (by simp only; nlinarith)]
      simp only; ring
  refine ⟨k1 n e hr, k2 n e ha, k3 n p hp, ?_⟩
  intro h
  simp only [List.replicate_succ, final]
  have hf : (p.feed id s).1 = { p with y := s } := by simp [PeakFollower.feed, h]
  rw [hf, k3 n { p with y := s } hp (le_refl s)]
  simp

/-- **C44 fails** for a release of half a sample: after the samples 1, 0 the peak follower's output is below -5. -/
theorem C44_short_release_violation (release : ℚ) (sps : Nat) (h : sps * release = 1 / 2) :
    ∃ y, outputs (PeakFollower.feed fl32) (PeakFollower.mk' fl32 fl64 release sps) [1, 0] = [1, y] ∧ y < -5 := by
  have hc := C45_half_sample_violation release sps h
  have hrep : IsFloat (Env.coef fl32 fl64 sps release) := by unfold Env.coef Env.fastExp3; exact fl32_lawful.rep _
  have h1 : IsFloat 1 := ⟨1, 0, by norm_num, by norm_num, by norm_num⟩
  refine ⟨Env.coef fl32 fl64 sps release, ?_, hc⟩
  have L := fl32_lawful
  simp only [outputs, PeakFollower.feed, PeakFollower.mk', zero_lt_one, gt_iff_lt, if_true, not_lt.2 zero_le_one,
    if_false, sub_zero, zero_add, L.fix _ h1, mul_one, L.fix _ hrep]

example : ((50000 : Nat) : ℚ) * (1 / 100000) = 1 / 2 := by norm_num

/-- **C44 fails** for every release between `10^-12` and 1.252 samples: both followers, fed 1 and then 0 for ever,
undershoot 0 at the second sample (the peak follower goes below the current sample; for the attack/release follower
with any attack of at least 1.255 samples). -/
theorem C44_short_violation (attack release : ℚ) (sps : Nat) (h0 : 1 / 10 ^ 12 ≤ sps * release)
    (h : sps * release ≤ 1252 / 1000) (ha : 1255 / 1000 ≤ sps * attack) :
    (∃ y, outputs (PeakFollower.feed fl32) (PeakFollower.mk' fl32 fl64 release sps) [1, 0] = [1, y] ∧ y < 0) ∧
    (∃ x y, outputs (EnvFollower.feed fl32) (EnvFollower.mk' fl32 fl64 attack release sps) [1, 0] = [x, y] ∧ y < 0) := by
  have L := fl32_lawful
  have hc := Env.coef_neg fl32_lawful fl64_lawful h0 h
  have hrep : IsFloat (Env.coef fl32 fl64 sps release) := by unfold Env.coef Env.fastExp3; exact fl32_lawful.rep _
  have h1 : IsFloat 1 := ⟨1, 0, by norm_num, by norm_num, by norm_num⟩
  constructor
  · refine ⟨Env.coef fl32 fl64 sps release, ?_, lt_of_le_of_lt hc (by norm_num)⟩
    simp only [outputs, PeakFollower.feed, PeakFollower.mk', zero_lt_one, gt_iff_lt, if_true, not_lt.2 zero_le_one,
      if_false, sub_zero, zero_add, L.fix _ h1, mul_one, L.fix _ hrep]
  · have hb := Env.coef_bounds fl32_lawful fl64_lawful ha
    set A := Env.coef fl32 fl64 sps attack with hA
    set R := Env.coef fl32 fl64 sps release with hR
    have hArep : IsFloat A := by rw [hA]; unfold Env.coef Env.fastExp3; exact fl32_lawful.rep _
    have hx : 1 / 2 ^ 24 ≤ fl32 (1 - A) :=
      L.ge_of_rep ⟨1, -24, by norm_num, by norm_num, by norm_num⟩ (by linarith [hb.2])
    have e1 : fl32 (1 + fl32 (A * fl32 (0 - 1))) = fl32 (1 - A) := by
      have : fl32 (0 - 1) = -1 := by
        rw [zero_sub]; exact L.fix (-1) ⟨-1, 0, by norm_num, by norm_num, by norm_num⟩
      rw [this, mul_neg_one]
      have : fl32 (-A) = -A := L.fix _ (by
        obtain ⟨m, e, h1, h2, h3⟩ := hArep
        exact ⟨-m, e, by rwa [abs_neg], h2, by rw [h3]; push_cast; ring⟩)
      rw [this, ← sub_eq_add_neg]
    have hout : outputs (EnvFollower.feed fl32) (EnvFollower.mk' fl32 fl64 attack release sps) [1, 0] =
        [fl32 (1 - A), fl32 (0 + fl32 (R * fl32 (fl32 (1 - A) - 0)))] := by
      have hn : ¬ (0 : ℚ) > fl32 (1 - A) := not_lt.2 (le_trans (by norm_num) hx)
      simp only [outputs, EnvFollower.feed, EnvFollower.mk', ← hA, ← hR, gt_iff_lt, zero_lt_one, if_true, e1]
      rw [if_neg hn]
    refine ⟨_, _, hout, ?_⟩
    rw [sub_zero, L.fix (fl32 (1 - A)) (L.rep _), zero_add, L.fix _ (L.rep _)]
    refine lt_of_le_of_lt (L.le_of_rep (r := -1 / 2 ^ 35) ⟨-1, -35, by norm_num, by norm_num, by norm_num⟩ ?_) (by norm_num)
    generalize fl32 (1 - A) = z at *
    generalize R = r at *
    norm_num at hx hc ⊢
    nlinarith

example : (1255 / 1000 : ℚ) ≤ (44100 : Nat) * (30 / 1000) := by norm_num

/-! ## Leaky integrator and one-pole low-pass -/

/-- **C56** (IEEE rounding included) `leaky_integrator` and `one_pole_lowpass` with a coefficient in `[0, 1)`: every
output stays within any range containing all the samples and the initial value. -/
theorem C56_hull (a : ℚ) (ha : IsFloat a) (h0 : 0 ≤ a) (h1 : a < 1) (y0 lo hi : ℚ) (hy : IsFloat y0)
    (hl : lo ≤ y0) (hh : y0 ≤ hi) (xs : List ℚ) (hx : ∀ x ∈ xs, IsFloat x ∧ lo ≤ x ∧ x ≤ hi) :
    (∀ y ∈ outputs (leaky fl32 a) y0 xs, lo ≤ y ∧ y ≤ hi) ∧
    (∀ y ∈ outputs (onePole fl32 a) y0 xs, lo ≤ y ∧ y ≤ hi) := by
  have L := fl32_lawful
  constructor
  · induction xs generalizing y0 with
    | nil => simp [outputs]
    | cons x xs ih =>
      have hx0 := hx x (by simp)
      have hb := L.approach_between (by norm_num) hx0.1 ha hy h0 h1
      intro y hy'
      have e1 := le_trans (le_min hx0.2.1 hl) hb.1
      have e2 := le_trans hb.2 (max_le hx0.2.2 hh)
      simp only [outputs, List.mem_cons] at hy'
      rcases hy' with rfl | hy'
      · exact ⟨e1, e2⟩
      · exact ih _ (L.rep _) e1 e2 (fun z hz => hx z (by simp [hz])) y hy'
  · induction xs generalizing y0 with
    | nil => simp [outputs]
    | cons x xs ih =>
      have hx0 := hx x (by simp)
      have hb := L.approach_between (by norm_num) hy ha hx0.1 h0 h1
      intro y hy'
      have e1 := le_trans (le_min hl hx0.2.1) hb.1
      have e2 := le_trans hb.2 (max_le hh hx0.2.2)
      simp only [outputs, List.mem_cons] at hy'
      rcases hy' with rfl | hy'
      · exact ⟨e1, e2⟩
      · exact ih _ (L.rep _) e1 e2 (fun z hz => hx z (by simp [hz])) y hy'

/-- **C56** (exact arithmetic) A constant input `c`: the distance of the output from `c` is multiplied by the same
factor at each sample, `a` for the leaky integrator and `1 - a` for the low-pass. -/
theorem C56_constant_input (a y0 c : ℚ) (n : Nat) :
    final (leaky id a) y0 (List.replicate n c) = c + a ^ n * (y0 - c) ∧
    final (onePole id a) y0 (List.replicate n c) = c + (1 - a) ^ n * (y0 - c) := by
  constructor
  · induction n generalizing y0 with
    | zero => simp [final]
    | succ n ih => simp only [List.replicate_succ, final, leaky, id]; rw [ih]; ring
  · induction n generalizing y0 with
    | zero => simp [final]
    | succ n ih => simp only [List.replicate_succ, final, onePole, id]; rw [ih]; ring

/-- **C56** (IEEE rounding included) For every `x = -2 pi f / sps` with `-1.595 ≤ x ≤ 0` (cut-offs up to 0.2538 of the
sampling rate) the coefficient computed by the constructor is a float in `(0, 1)`, so `C56_hull` applies. -/
theorem C56_cutoff_partial (x : ℚ) (h0 : x ≤ 0) (h1 : -1595 / 1000 ≤ x) :
    IsFloat (onePoleCoef fl32 fl64 x) ∧ 0 < onePoleCoef fl32 fl64 x ∧ onePoleCoef fl32 fl64 x < 1 := by
  have hb := Env.fastExp3_bounds fl32_lawful h0 h1
  have r1 : Rep 53 (-1074) (1 / 2 ^ 24) := ⟨1, -24, by norm_num, by norm_num, by norm_num⟩
  have r2 : Rep 24 (-149) (1 / 2 ^ 24) := ⟨1, -24, by norm_num, by norm_num, by norm_num⟩
  have r3 : Rep 53 (-1074) (2047 / 2 ^ 11) := ⟨2047, -11, by norm_num, by norm_num, by norm_num⟩
  have r4 : Rep 24 (-149) (2047 / 2 ^ 11) := ⟨2047, -11, by norm_num, by norm_num, by norm_num⟩
  unfold onePoleCoef
  refine ⟨fl32_lawful.rep _, ?_, ?_⟩
  · refine lt_of_lt_of_le (b := (1 : ℚ) / 2 ^ 24) (by norm_num) (fl32_lawful.ge_of_rep r2 (fl64_lawful.ge_of_rep r1 ?_))
    linarith [hb.2]
  · refine lt_of_le_of_lt (b := (2047 : ℚ) / 2 ^ 11) (fl32_lawful.le_of_rep r4 (fl64_lawful.le_of_rep r3 ?_)) (by norm_num)
    norm_num
    linarith [hb.1]

/-- **C56 fails** (IEEE rounding included) for every `x ≤ -1.597` (cut-offs above 0.2542 of the sampling rate): the
low-pass leaves the range of its input, its first response to a unit step being above 1. -/
theorem C56_overshoot_violation (x : ℚ) (h : x ≤ -1597 / 1000) :
    ∃ y, outputs (onePole fl32 (onePoleCoef fl32 fl64 x)) 0 [1] = [y] ∧ 1 < y := by
  have L := fl32_lawful
  have hn := Env.fastExp3_neg L h
  have hc : 2049 / 2 ^ 11 ≤ onePoleCoef fl32 fl64 x := by
    unfold onePoleCoef
    refine L.ge_of_rep ⟨2049, -11, by norm_num, by norm_num, by norm_num⟩
      (fl64_lawful.ge_of_rep ⟨2049, -11, by norm_num, by norm_num, by norm_num⟩ ?_)
    norm_num at hn ⊢; linarith
  have hr : IsFloat (onePoleCoef fl32 fl64 x) := by unfold onePoleCoef; exact L.rep _
  refine ⟨onePoleCoef fl32 fl64 x, ?_, lt_of_lt_of_le (by norm_num) hc⟩
  have h1 : fl32 1 = 1 := L.fix _ ⟨1, 0, by norm_num, by norm_num, by norm_num⟩
  simp only [outputs, onePole, sub_zero, h1, mul_one, L.fix _ hr, zero_add]

/-- **C56** (exact arithmetic) For `-2.512 ≤ x < 0` (cut-offs up to 0.3998 of the sampling rate) the response to a
constant input still converges to it: the distance is multiplied by a factor of modulus below 1 at each sample. -/
theorem C56_stable (x : ℚ) (h : -2512 / 1000 ≤ x) (h0 : x < 0) :
    ∃ r : ℚ, |r| < 1 ∧ ∀ (y c : ℚ) (n : Nat),
      final (onePole id (onePoleCoef id id x)) y (List.replicate n c) = c + r ^ n * (y - c) := by
  refine ⟨1 - onePoleCoef id id x, ?_, fun y c n => (C56_constant_input _ y c n).2⟩
  simp only [onePoleCoef, Env.fastExp3, id]
  have e1 : 6 + x * (6 + x * (3 + x)) < 6 := by nlinarith [sq_nonneg (x + 3 / 2), mul_pos_of_neg_of_neg h0 h0]
  have e2 : -5995 / 1000 ≤ 6 + x * (6 + x * (3 + x)) := by
    nlinarith [mul_nonneg (by linarith : 0 ≤ x + 2512 / 1000) (sq_nonneg (x + 1)), sq_nonneg (x + 1),
      mul_nonneg (by linarith : 0 ≤ x + 2512 / 1000) (by linarith : 0 ≤ -x)]
  generalize 6 + x * (6 + x * (3 + x)) = q at *
  rw [abs_lt]
  constructor <;> norm_num <;> linarith

/-- **C56 fails** near the Nyquist frequency: for `2 pi f / sps ≥ 2.513` (cutoff above 0.4 of the sampling rate)
the low-pass (exact arithmetic) is unstable, its response to a unit step being unbounded. -/
theorem C56_nyquist_violation (x : ℚ) (hx : x ≤ -2513 / 1000) (B : ℚ) :
    ∃ n, B < |final (onePole id (onePoleCoef id id x)) 0 (List.replicate n 1)| := by
  have hr : 1 - onePoleCoef id id x < -1 := by
    simp only [onePoleCoef, Env.fastExp3, id]
    have : 6 + x * (6 + x * (3 + x)) ≤ -60025 / 10000 := by
      nlinarith [mul_nonneg (by linarith : 0 ≤ -x - 2513 / 1000) (sq_nonneg (x + 1)), sq_nonneg (x + 1),
        mul_nonneg (by linarith : 0 ≤ -x - 2513 / 1000) (by linarith : 0 ≤ -x)]
    norm_num
    linarith
  have ha : 1 < |1 - onePoleCoef id id x| := by rw [abs_of_neg (by linarith)]; linarith
  obtain ⟨n, hn⟩ := pow_unbounded_of_one_lt (B + 1) ha
  refine ⟨n, ?_⟩
  rw [(C56_constant_input _ 0 1 n).2]
  rw [← abs_pow] at hn
  have := abs_sub_abs_le_abs_sub ((1 - onePoleCoef id id x) ^ n) 1
  have e : |1 + (1 - onePoleCoef id id x) ^ n * (0 - 1)| = |(1 - onePoleCoef id id x) ^ n - 1| := by
    rw [abs_sub_comm]; congr 1; ring
  rw [e]
  rw [abs_one] at this
  linarith

/-- **C56** (IEEE rounding included) For every `x = 2 pi f / sps` between `2^-24` and 1 (cut-offs up to 0.159 of the sampling
rate) the coefficient of the leaky integrator is a float in `[0, 1)`, so `C56_hull` applies. -/
theorem C56_leaky_cutoff_partial (x : ℚ) (h0 : 1 / 2 ^ 24 ≤ x) (h1 : x ≤ 1) :
    IsFloat (leakyCoef fl32 x) ∧ 0 ≤ leakyCoef fl32 x ∧ leakyCoef fl32 x < 1 := by
  have L := fl32_lawful
  unfold leakyCoef
  refine ⟨L.rep _, L.nonneg (by linarith), ?_⟩
  refine lt_of_le_of_lt (L.le_of_rep (r := 1 - 1 / 2 ^ 24) ⟨2 ^ 24 - 1, -24, by norm_num, by norm_num, by norm_num⟩ ?_) (by norm_num)
  linarith

/-- **C56 fails** (IEEE rounding included) for every `x = 2 pi f / sps` above `1 + 2^-23`: fed 1 and then 0, the leaky
integrator does not rise to 1 but above it, out of the range of its input. -/
theorem C56_leaky_violation (x : ℚ) (h : 1 + 1 / 2 ^ 23 ≤ x) :
    ∃ y, outputs (leaky fl32 (leakyCoef fl32 x)) 0 [1] = [y] ∧ 1 < y := by
  have L := fl32_lawful
  have hc : leakyCoef fl32 x ≤ -1 / 2 ^ 23 := by
    unfold leakyCoef
    refine L.le_of_rep ⟨-1, -23, by norm_num, by norm_num, by norm_num⟩ ?_
    norm_num at h ⊢; linarith
  have hr : IsFloat (leakyCoef fl32 x) := by unfold leakyCoef; exact L.rep _
  refine ⟨fl32 (1 + -leakyCoef fl32 x), ?_, ?_⟩
  · have h1 : fl32 (0 - 1) = -1 := by rw [zero_sub]; exact L.fix (-1) ⟨-1, 0, by norm_num, by norm_num, by norm_num⟩
    have h2 : fl32 (-leakyCoef fl32 x) = -leakyCoef fl32 x := L.fix _ (by
      obtain ⟨m, e, h1, h2, h3⟩ := hr
      exact ⟨-m, e, by rwa [abs_neg], h2, by rw [h3]; push_cast; ring⟩)
    simp only [outputs, leaky, h1, mul_neg_one, h2]
  · refine lt_of_lt_of_le (b := 1 + 1 / 2 ^ 23) (by norm_num)
      (L.ge_of_rep ⟨2 ^ 23 + 1, -23, by norm_num, by norm_num, by norm_num⟩ ?_)
    norm_num at hc ⊢; linarith

/-- Cut-offs on both sides: 1 kHz and 8 kHz at 44.1 kHz (`x` about 0.142 and 1.14). -/
example : (1 / 2 ^ 24 : ℚ) ≤ 142 / 1000 ∧ (142 / 1000 : ℚ) ≤ 1 ∧ (1 + 1 / 2 ^ 23 : ℚ) ≤ 1139 / 1000 := by norm_num

end Verif
