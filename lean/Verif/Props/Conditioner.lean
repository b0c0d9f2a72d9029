import Verif.Model.Conditioner
import Verif.Props.Follower
import Verif.Props.Dynamics
import Verif.Props.DecibelInverse
/-!
# C78: `signal_conditioner`

Binary32/binary64 rounding included (`fl32`, `fl64`), decibel tables included.
-/
namespace Verif
open Rounding Dyn Follow Decibel Cond

namespace Cond

/-- The settings a user may choose: time constants of at least 1.255 samples, sample rate of at least 4000 (so that
the fixed 500 us of the gate envelope are 2 samples), a compression ratio in [0, 1], a nonnegative float make-up
gain. -/
structure Config.Ok (c : Config) (sps : Nat) : Prop where
  rate : 4000 ≤ sps
  env : 1255 / 1000 ≤ sps * c.envRelease
  gate : 1255 / 1000 ≤ sps * c.gateReleaseTime
  slope0 : 0 ≤ c.compSlope
  slope1 : c.compSlope ≤ 1
  gain : IsFloat c.compGain
  gain0 : 0 ≤ c.compGain

/-- All samples of a history of operations are floats. -/
def SigCond.Op.Float : SigCond.Op → Prop
  | .feed s => IsFloat s
  | _ => True

structure CInv (c : SigCond) : Prop where
  ey : IsFloat c.env.y
  ey0 : 0 ≤ c.env.y
  er : Env.IsRate c.env.release
  slope : 0 ≤ c.comp.slope
  m : IsFloat c.makeup
  m0 : 0 ≤ c.makeup
  gy : IsFloat c.gateEnv.y
  gy0 : 0 ≤ c.gateEnv.y
  gy1 : c.gateEnv.y ≤ 1
  ga : Env.IsRate c.gateEnv.attack
  gr : Env.IsRate c.gateEnv.release

theorem isFloat_one : IsFloat 1 := ⟨1, 0, by norm_num, by norm_num, by norm_num⟩

/-- 0 dB is the amplitude 1, exactly. -/
theorem db2a_zero : db2a fl32 fl64 0 = .ok 1 := by
  obtain ⟨k, μ, hk, m0, m1, hkm, e⟩ := inv_cell fl32_lawful fl64_lawful (d := 0) isFloat_zero le_rfl (by norm_num)
  rw [zero_mul, fl32_lawful.zero] at hkm
  have k0 : (0 : ℚ) ≤ k := Nat.cast_nonneg k
  have hk0 : k = 0 := by
    have : (k : ℚ) = 0 := by linarith
    exact_mod_cast this
  have hm : μ = 0 := by linarith
  subst hk0 hm
  have one := (inv_ends fl32_lawful fl64_lawful).1
  unfold db2a
  rw [if_neg (by norm_num), e, Sin.linear_interpolate, one, zero_mul, fl32_lawful.zero, add_zero,
    fl32_lawful.fix 1 isFloat_one]

theorem toAmp_total (d : ℚ) : ∃ v, toAmp fl32 fl64 d = .ok v ∧ IsFloat v ∧ 0 < v ∧ (d ≤ 0 → v ≤ 1) := by
  obtain ⟨v, e, h1, h2, h3, h4⟩ := C61_db2a_total fl32_lawful fl64_lawful (fl32 d) (fl32_lawful.rep _)
  refine ⟨v, e, ?_, h1, fun hd => ?_⟩
  · have up : ∀ {x w : ℚ}, Rep 24 (-149) x → 0 ≤ x → db2aUp fl32 fl64 x = .ok w → Rep 24 (-149) w := by
      intro x w hx h0 ew
      rcases lt_or_ge x 120 with h | h
      · obtain ⟨k, μ, -, -, -, -, e'⟩ := inv_cell fl32_lawful fl64_lawful hx h0 h
        rw [ew] at e'; injection e' with e'; rw [e']; exact fl32_lawful.rep _
      · rw [inv_sat h] at ew; injection ew with ew; rw [← ew]
        exact ⟨1000000, 0, by norm_num, by norm_num, by norm_num⟩
    rcases db2a_cases fl32_lawful fl64_lawful (fl32_lawful.rep _) e with ⟨h, i⟩ | ⟨h, w, i, w1, w2, hw⟩
    · exact up (fl32_lawful.rep _) h i
    · rw [hw]; exact fl32_lawful.rep _
  rcases lt_or_eq_of_le (fnonpos fl32_lawful (by norm_num) hd) with h | h
  · exact h4 h
  · rw [h, db2a_zero] at e
    injection e with e
    rw [← e]

theorem comp_nonpos {c : Compressor} (h : 0 ≤ c.slope) (env : ℚ) : c.gain fl64 env ≤ 0 := by
  unfold Compressor.gain
  split_ifs with hc
  · exact le_rfl
  · refine fnonpos fl64_lawful (by norm_num) (mul_nonpos_of_nonneg_of_nonpos h (fnonpos fl64_lawful (by norm_num) ?_))
    push Not at hc; linarith

theorem peak_feed {e : PeakFollower} (hr : Env.IsRate e.release) (hy : IsFloat e.y) {s : ℚ} (hs : IsFloat s) :
    s ≤ (e.feed fl32 s).1.y ∧ (e.feed fl32 s).1.y ≤ max s e.y ∧ IsFloat (e.feed fl32 s).1.y ∧
      (e.feed fl32 s).2 = (e.feed fl32 s).1.y ∧ (e.feed fl32 s).1.release = e.release := by
  refine ⟨?_, ?_, ?_, rfl, rfl⟩ <;> unfold PeakFollower.feed <;> simp only <;> split_ifs with hc
  · exact le_rfl
  · have := fl32_lawful.approach_between (by norm_num) hs hr.1 hy hr.2.1 hr.2.2
    rw [min_eq_left (not_lt.1 hc)] at this
    exact this.1
  · exact le_max_left _ _
  · exact (fl32_lawful.approach_between (by norm_num) hs hr.1 hy hr.2.1 hr.2.2).2
  · exact hs
  · exact fl32_lawful.rep _

/-- Absolute value of a float. -/
theorem isFloat_abs {s : ℚ} (hs : IsFloat s) : IsFloat |s| := by
  rcases abs_choice s with h | h <;> rw [h]
  · exact hs
  · exact rep_neg hs

/-- One call, in full: the state after it, and the output as a product. -/
theorem feed_ok {c : SigCond} (i : CInv c) {s : ℚ} (hs : IsFloat s) :
    ∃ c' lev amp, c.feed fl32 fl64 s = .ok (c', fl32 (fl32 (s * c'.gateEnv.y) * fl32 (amp * c.makeup))) ∧ CInv c' ∧
      c'.comp = c.comp ∧ c'.makeup = c.makeup ∧ c'.gate.onset = c.gate.onset ∧ c'.gate.release = c.gate.release ∧
      c'.gate = (c.gate.feed c'.env.y).1 ∧ |s| ≤ c'.env.y ∧ c'.env.y ≤ max |s| c.env.y ∧
      c'.gateEnv = (c.gateEnv.feed fl32 (if c'.gate.state then 1 else 0)).1 ∧
      a2db fl32 fl64 c'.env.y = .ok lev ∧ toAmp fl32 fl64 (c.comp.gain fl64 lev) = .ok amp ∧ IsFloat amp ∧ 0 < amp ∧ amp ≤ 1 := by
  have pf := peak_feed i.er i.ey (isFloat_abs hs)
  obtain ⟨lev, elev, -⟩ := (C61_a2db_total fl32_lawful fl64_lawful _ pf.2.2.1).1 (le_trans (abs_nonneg s) pf.1)
  obtain ⟨amp, eamp, ha, h0, h1⟩ := toAmp_total (c.comp.gain fl64 lev)
  have hg : IsFloat (if (c.gate.feed (c.env.feed fl32 |s|).1.y).2 = true then (1 : ℚ) else 0) := by
    split_ifs
    · exact isFloat_one
    · exact isFloat_zero
  have hg01 : 0 ≤ (if (c.gate.feed (c.env.feed fl32 |s|).1.y).2 = true then (1 : ℚ) else 0) ∧
      (if (c.gate.feed (c.env.feed fl32 |s|).1.y).2 = true then (1 : ℚ) else 0) ≤ 1 := by
    split_ifs <;> norm_num
  have ef := env_feed fl32_lawful (e := c.gateEnv) i.ga i.gr i.gy hg
  refine ⟨{ c with env := (c.env.feed fl32 |s|).1, gate := (c.gate.feed (c.env.feed fl32 |s|).1.y).1,
                   gateEnv := (c.gateEnv.feed fl32 (if (c.gate.feed (c.env.feed fl32 |s|).1.y).2 then 1 else 0)).1 },
    lev, amp, ?_, ?_, rfl, rfl, rfl, rfl, rfl, pf.1, pf.2.1, rfl, elev, eamp, ha, h0, h1 (comp_nonpos i.slope _)⟩
  · unfold SigCond.feed
    simp only []
    rw [pf.2.2.2.1, elev, bind_ok, eamp, bind_ok]
    rfl
  · refine ⟨pf.2.2.1, le_trans (abs_nonneg s) pf.1, i.er, i.slope, i.m, i.m0, fl32_lawful.rep _, ?_, ?_, i.ga, i.gr⟩
    · exact le_trans (le_min hg01.1 i.gy0) ef.1
    · exact le_trans ef.2.1 (max_le hg01.2 i.gy1)

theorem coef500 {sps : Nat} (h : 4000 ≤ sps) : (3 / 2 : ℚ) ≤ sps * fl64 (500 * fl64 (1 / 1000000)) := by
  have e1 : (99 / 100000000 : ℚ) ≤ fl64 (1 / 1000000) := by
    have := fl64_lawful.err (1 / 1000000)
    have h2 : max (|(1 / 1000000 : ℚ)| / 2 ^ 53) ((2 : ℚ) ^ (-1074 : ℤ) / 2) ≤ 1 / 100000000 := by
      refine max_le (by norm_num) ?_
      have : (2 : ℚ) ^ (-1074 : ℤ) ≤ (2 : ℚ) ^ (-30 : ℤ) := zpow_le_zpow_right₀ (by norm_num) (by norm_num)
      have h3 : (2 : ℚ) ^ (-30 : ℤ) = 1 / 1073741824 := by norm_num
      rw [h3] at this
      linarith
    have := (abs_le.1 (this.trans h2)).1
    linarith
  have e2 : (31 * 2 ^ (-16 : ℤ) : ℚ) ≤ fl64 (500 * fl64 (1 / 1000000)) := by
    refine fl64_lawful.ge_of_rep ⟨31, -16, by norm_num, by norm_num, by norm_num⟩ ?_
    norm_num; linarith
  have h3 : (4000 : ℚ) ≤ sps := by exact_mod_cast h
  norm_num at e2
  generalize fl64 (500 * fl64 (1 / 1000000)) = z at *
  nlinarith

theorem mk_ok {c : Config} {sps : Nat} (h : c.Ok sps) : ∃ c0, SigCond.mk' fl32 fl64 c sps = .ok c0 ∧ CInv c0 ∧
    c0.comp = Compressor.mk' fl32 c.compThreshold c.compSlope ∧ c0.makeup = c.compGain ∧ c0.gate.state = false ∧
    c0.gateEnv.y = 0 ∧ c0.env.y = 0 ∧ toAmp fl32 fl64 c.gateOnset = .ok c0.gate.onset ∧
    toAmp fl32 fl64 c.gateRelease = .ok c0.gate.release := by
  obtain ⟨r, er, -⟩ := toAmp_total c.gateRelease
  obtain ⟨o, eo, -⟩ := toAmp_total c.gateOnset
  refine ⟨_, by unfold SigCond.mk'; rw [er, bind_ok, eo, bind_ok]; rfl, ?_, rfl, rfl, rfl, rfl, rfl, eo, er⟩
  exact ⟨isFloat_zero, le_rfl, Env.coef_rate fl32_lawful fl64_lawful h.env, (slope_range h.slope0 h.slope1).1, h.gain, h.gain0,
    isFloat_zero, le_rfl, zero_le_one, Env.coef_rate fl32_lawful fl64_lawful (le_trans (by norm_num) (coef500 h.rate)),
    Env.coef_rate fl32_lawful fl64_lawful h.gate⟩

theorem step_ok {c : SigCond} (i : CInv c) {o : SigCond.Op} (ho : o.Float) :
    ∃ c' y, c.step fl32 fl64 o = .ok (c', y) ∧ CInv c' ∧ c'.comp = c.comp ∧ c'.makeup = c.makeup := by
  cases o with
  | feed s =>
    obtain ⟨c', lev, amp, e, i', h1, h2, -⟩ := feed_ok i (s := s) ho
    exact ⟨c', _, e, i', h1, h2⟩
  | onsetDb d =>
    obtain ⟨v, ev, -⟩ := toAmp_total d
    refine ⟨{ c with gate := { c.gate with onset := v } }, 0, by simp only [SigCond.step]; rw [ev, bind_ok]; rfl, ?_, rfl, rfl⟩
    exact ⟨i.ey, i.ey0, i.er, i.slope, i.m, i.m0, i.gy, i.gy0, i.gy1, i.ga, i.gr⟩
  | releaseDb d =>
    obtain ⟨v, ev, -⟩ := toAmp_total d
    refine ⟨{ c with gate := { c.gate with release := v } }, 0, by simp only [SigCond.step]; rw [ev, bind_ok]; rfl, ?_, rfl, rfl⟩
    exact ⟨i.ey, i.ey0, i.er, i.slope, i.m, i.m0, i.gy, i.gy0, i.gy1, i.ga, i.gr⟩
  | onset x =>
    exact ⟨_, _, rfl, ⟨i.ey, i.ey0, i.er, i.slope, i.m, i.m0, i.gy, i.gy0, i.gy1, i.ga, i.gr⟩, rfl, rfl⟩
  | release x =>
    exact ⟨_, _, rfl, ⟨i.ey, i.ey0, i.er, i.slope, i.m, i.m0, i.gy, i.gy0, i.gy1, i.ga, i.gr⟩, rfl, rfl⟩

theorem run_ok {c : SigCond} (i : CInv c) (ops : List SigCond.Op) (ho : ∀ o ∈ ops, o.Float) :
    ∃ c' ys, runC (SigCond.step fl32 fl64) c ops = .ok (c', ys) ∧ CInv c' ∧ c'.comp = c.comp ∧ c'.makeup = c.makeup := by
  induction ops generalizing c with
  | nil => exact ⟨c, [], rfl, i, rfl, rfl⟩
  | cons o ops ih =>
    obtain ⟨c1, y, e1, i1, h1, h2⟩ := step_ok i (ho o (by simp))
    obtain ⟨c2, ys, e2, i2, h3, h4⟩ := ih i1 (fun o h => ho o (by simp [h]))
    refine ⟨c2, y :: ys, ?_, i2, by rw [h3, h1], by rw [h4, h2]⟩
    rw [runC, e1]
    simp only [bind, Except.bind, e2]
    rfl

/-- The states reachable by a user. -/
def Reach (cfg : Config) (sps : Nat) (c : SigCond) : Prop :=
  ∃ c0 ops ys, (∀ o ∈ ops, SigCond.Op.Float o) ∧ SigCond.mk' fl32 fl64 cfg sps = .ok c0 ∧
    runC (SigCond.step fl32 fl64) c0 ops = .ok (c, ys)

theorem reach_inv {cfg : Config} {sps : Nat} (h : cfg.Ok sps) {c : SigCond} (r : Reach cfg sps c) :
    CInv c ∧ c.comp = Compressor.mk' fl32 cfg.compThreshold cfg.compSlope ∧ c.makeup = cfg.compGain := by
  obtain ⟨c0, ops, ys, ho, e0, e⟩ := r
  obtain ⟨c0', e0', i, h1, h2, -⟩ := mk_ok h
  rw [e0] at e0'; injection e0' with e0'; subst e0'
  obtain ⟨c', ys', e', i', h3, h4⟩ := run_ok i ops ho
  rw [e] at e'; injection e' with e'; injection e' with e' _; subst e'
  exact ⟨i', by rw [h3, h1], by rw [h4, h2]⟩
end Cond

/-- **C78** Construction and every history of calls and threshold changes succeed: no assertion fails, no table is
read out of range. -/
theorem C78_total (cfg : Config) (sps : Nat) (h : cfg.Ok sps) (ops : List SigCond.Op) (ho : ∀ o ∈ ops, o.Float) :
    ∃ c0 c ys, SigCond.mk' fl32 fl64 cfg sps = .ok c0 ∧ runC (SigCond.step fl32 fl64) c0 ops = .ok (c, ys) := by
  obtain ⟨c0, e0, i, -⟩ := mk_ok h
  obtain ⟨c, ys, e, -⟩ := run_ok i ops ho
  exact ⟨c0, c, ys, e0, e⟩

/-- **C78** At any time, one more sample: the output has the sign of the sample and is at most the sample amplified
by the make-up gain (correctly rounded); the reported envelope is at least the sample and the gate envelope
between 0 and 1. -/
theorem C78_bounded (cfg : Config) (sps : Nat) (h : cfg.Ok sps) (c : SigCond) (hc : Reach cfg sps c) (s : ℚ) (hs : IsFloat s) :
    ∃ c' y, c.feed fl32 fl64 s = .ok (c', y) ∧ |y| ≤ fl32 (|s| * cfg.compGain) ∧ (0 ≤ s → 0 ≤ y) ∧ (s ≤ 0 → y ≤ 0) ∧
      |s| ≤ c'.env.y ∧ 0 ≤ c'.gateEnv.y ∧ c'.gateEnv.y ≤ 1 := by
  obtain ⟨i, -, hm⟩ := reach_inv h hc
  obtain ⟨c', lev, amp, e, i', -, -, -, -, -, hle, -, -, -, -, -, ha0, ha1⟩ := feed_ok i hs
  rw [hm] at e
  have m0 := h.gain0
  have g0 : 0 ≤ fl32 (amp * cfg.compGain) := fl32_lawful.nonneg (by positivity)
  have g1 : fl32 (amp * cfg.compGain) ≤ cfg.compGain := fl32_lawful.le_of_rep h.gain (mul_le_of_le_one_left m0 ha1)
  have hs1 : |fl32 (s * c'.gateEnv.y)| ≤ |s| := by
    refine fl32_lawful.abs_le_of_rep (isFloat_abs hs) ?_
    rw [abs_mul, abs_of_nonneg i'.gy0]
    exact mul_le_of_le_one_right (abs_nonneg _) i'.gy1
  refine ⟨c', _, e, ?_, fun h0 => ?_, fun h0 => ?_, hle, i'.gy0, i'.gy1⟩
  · have : |fl32 (s * c'.gateEnv.y) * fl32 (amp * cfg.compGain)| ≤ |s| * cfg.compGain := by
      rw [abs_mul, abs_of_nonneg g0]
      exact mul_le_mul hs1 g1 g0 (abs_nonneg _)
    rw [abs_le] at this ⊢
    exact ⟨by rw [← fl32_lawful.neg]; exact fl32_lawful.mono _ _ this.1, fl32_lawful.mono _ _ this.2⟩
  · exact fl32_lawful.nonneg (mul_nonneg (fl32_lawful.nonneg (mul_nonneg h0 i'.gy0)) g0)
  · exact fnonpos fl32_lawful (by norm_num) (mul_nonpos_of_nonpos_of_nonneg
      (fnonpos fl32_lawful (by norm_num) (mul_nonpos_of_nonpos_of_nonneg h0 i'.gy0)) g0)

/-- **C78** A signal that never exceeds the onset threshold is muted completely: every output is exactly 0. -/
theorem C78_muted (cfg : Config) (sps : Nat) (h : cfg.Ok sps) (onset : ℚ) (ht : toAmp fl32 fl64 cfg.gateOnset = .ok onset)
    (xs : List ℚ) (hx : ∀ x ∈ xs, IsFloat x ∧ |x| ≤ onset) :
    ∃ c0 c, SigCond.mk' fl32 fl64 cfg sps = .ok c0 ∧
      runC (SigCond.feed fl32 fl64) c0 xs = .ok (c, List.replicate xs.length 0) := by
  obtain ⟨c0, e0, i, -, -, hst, hgy, hey, ho, -⟩ := mk_ok h
  rw [ht] at ho
  injection ho with ho
  refine ⟨c0, ?_⟩
  have h0 : c0.env.y ≤ onset := by
    rw [hey]
    obtain ⟨v, ev, -, v0, -⟩ := toAmp_total cfg.gateOnset
    rw [ht] at ev; injection ev with ev; rw [ev]; exact v0.le
  suffices ∃ c, runC (SigCond.feed fl32 fl64) c0 xs = .ok (c, List.replicate xs.length 0) by
    obtain ⟨c, e⟩ := this; exact ⟨c, e0, e⟩
  clear e0 hey
  induction xs generalizing c0 with
  | nil => exact ⟨c0, rfl⟩
  | cons x xs ih =>
    have hx0 := hx x (by simp)
    obtain ⟨c', lev, amp, e, i', h1, h2, h3, h4, h5, h6, h7, h8, -⟩ := feed_ok i hx0.1
    have hle : c'.env.y ≤ onset := h7.trans (max_le hx0.2 h0)
    have hs : c'.gate.state = false := by
      rw [h5]
      unfold Logic.Gate.feed
      simp only [hst, Bool.not_false, Bool.true_and, Bool.false_and, gt_iff_lt, ← ho]
      rw [if_neg (by simpa using hle)]
      simp
    have hg : c'.gateEnv.y = 0 := by
      rw [h8, hs]
      unfold EnvFollower.feed
      simp only [hgy, Bool.false_eq_true, if_false, gt_iff_lt, lt_irrefl, sub_zero, fl32_lawful.zero, mul_zero, add_zero]
    obtain ⟨c2, e2⟩ := ih (fun z hz => hx z (by simp [hz])) c' i' hs hg (by rw [h3]; exact ho) hle
    refine ⟨c2, ?_⟩
    rw [runC, e]
    simp only [bind, Except.bind, e2]
    rw [hg, mul_zero, fl32_lawful.zero, zero_mul, fl32_lawful.zero]
    rfl

namespace Cond

theorem tiny150 : (2 : ℚ) ^ (-149 : ℤ) / 2 ≤ 1 / 10 ^ 9 := by
  rw [show (-149 : ℤ) = -((149 : ℕ) : ℤ) by norm_num, zpow_neg, zpow_natCast]; norm_num

theorem err32 (x : ℚ) : |fl32 x - x| ≤ |x| / 2 ^ 24 + 1 / 10 ^ 9 := by
  refine (fl32_lawful.err x).trans (max_le ?_ ?_)
  · have : (0 : ℚ) ≤ 1 / 10 ^ 9 := by norm_num
    linarith
  · have := abs_nonneg x
    have := tiny150
    have : 0 ≤ |x| / 2 ^ 24 := by positivity
    linarith

theorem err64 (x : ℚ) : |fl64 x - x| ≤ |x| / 2 ^ 53 + 1 / 10 ^ 9 := by
  have t : (2 : ℚ) ^ (-1074 : ℤ) / 2 ≤ 1 / 10 ^ 9 := by
    have : (2 : ℚ) ^ (-1074 : ℤ) ≤ (2 : ℚ) ^ (-149 : ℤ) := zpow_le_zpow_right₀ (by norm_num) (by norm_num)
    exact (div_le_div_of_nonneg_right this (by norm_num)).trans tiny150
  refine (fl64_lawful.err x).trans (max_le ?_ ?_)
  · have : (0 : ℚ) ≤ 1 / 10 ^ 9 := by norm_num
    linarith
  · have : 0 ≤ |x| / 2 ^ 53 := by positivity
    linarith

/-- The gain (in dB) of the compressor, rounded to float, against the exact one. -/
theorem comp_db {T r lev : ℚ} (h0 : 0 ≤ r) (h1 : r ≤ 1) (hl : lev ≤ T + 120) :
    |fl32 ((Compressor.mk' fl32 T r).gain fl64 lev) - (1 - r) * min 0 (T - lev)| ≤ 2 / 10 ^ 5 ∧
      -120 ≤ fl32 ((Compressor.mk' fl32 T r).gain fl64 lev) ∧ fl32 ((Compressor.mk' fl32 T r).gain fl64 lev) ≤ 0 := by
  unfold Compressor.gain Compressor.mk'
  simp only []
  split_ifs with hc
  · rw [fl32_lawful.zero, min_eq_left (by linarith)]
    norm_num
  · push Not at hc
    rw [min_eq_right (by linarith)]
    have s := slope_range h0 h1
    have r120 : Rep 24 (-149) (-120) := ⟨-120, 0, by norm_num, by norm_num, by norm_num⟩
    have r120' : Rep 53 (-1074) (-120) := ⟨-120, 0, by norm_num, by norm_num, by norm_num⟩
    have a0 : fl64 (T - lev) ≤ 0 := fnonpos fl64_lawful (by norm_num) (by linarith)
    have a1 : -120 ≤ fl64 (T - lev) := fl64_lawful.ge_of_rep r120' (by linarith)
    have p0 : fl32 (1 - r) * fl64 (T - lev) ≤ 0 := mul_nonpos_of_nonneg_of_nonpos s.1 a0
    have p1 : -120 ≤ fl32 (1 - r) * fl64 (T - lev) := by nlinarith
    have q0 : fl64 (fl32 (1 - r) * fl64 (T - lev)) ≤ 0 := fnonpos fl64_lawful (by norm_num) p0
    have q1 : -120 ≤ fl64 (fl32 (1 - r) * fl64 (T - lev)) := fl64_lawful.ge_of_rep r120' p1
    refine ⟨?_, fl32_lawful.ge_of_rep r120 q1, fnonpos fl32_lawful (by norm_num) q0⟩
    have e1 := err32 (fl64 (fl32 (1 - r) * fl64 (T - lev)))
    have e2 := err64 (fl32 (1 - r) * fl64 (T - lev))
    have e3 := err64 (T - lev)
    have e4 := err32 (1 - r)
    rw [abs_of_nonpos q0] at e1
    rw [abs_of_nonpos p0] at e2
    rw [abs_of_nonpos (by linarith : T - lev ≤ 0)] at e3
    rw [abs_of_nonneg (by linarith : 0 ≤ 1 - r)] at e4
    generalize fl32 (fl64 (fl32 (1 - r) * fl64 (T - lev))) = w at *
    generalize fl64 (fl32 (1 - r) * fl64 (T - lev)) = q at *
    generalize fl64 (T - lev) = A at *
    generalize fl32 (1 - r) = S at *
    have m : |S * A - (1 - r) * (T - lev)| ≤ 120 * (1 / 2 ^ 24 + 1 / 10 ^ 9) + (120 / 2 ^ 53 + 1 / 10 ^ 9) := by
      have e : S * A - (1 - r) * (T - lev) = (S - (1 - r)) * A + (1 - r) * (A - (T - lev)) := by ring
      rw [e]
      refine (abs_add_le _ _).trans (add_le_add ?_ ?_)
      · rw [abs_mul, mul_comm]
        refine mul_le_mul (abs_le.2 ⟨by linarith, by linarith⟩) (e4.trans ?_) (abs_nonneg _) (by norm_num)
        have : (1 - r) / 2 ^ 24 ≤ 1 / 2 ^ 24 := div_le_div_of_nonneg_right (by linarith) (by norm_num)
        linarith
      · rw [abs_mul, abs_of_nonneg (by linarith : 0 ≤ 1 - r)]
        refine (mul_le_of_le_one_left (abs_nonneg _) (by linarith)).trans (e3.trans ?_)
        have : -(T - lev) / 2 ^ 53 ≤ 120 / 2 ^ 53 := div_le_div_of_nonneg_right (by linarith) (by norm_num)
        linarith
    rw [abs_le] at *
    norm_num at *
    constructor <;> linarith [e1.1, e1.2, e2.1, e2.2, m.1, m.2]

/-- Products of three small relative errors. -/
theorem rel3 {g p m x I E : ℝ} (m0 : 0 ≤ m) (I0 : 0 ≤ I) (E0 : 0 ≤ E) (hg : |g - p * m| ≤ p * m / 2 ^ 24)
    (hp : |p - x| ≤ 25 / 10 ^ 6 * x) (hx : |x - I| ≤ I * E) : |g - m * I| ≤ (E * (1 + 26 / 10 ^ 6) + 26 / 10 ^ 6) * (m * I) := by
  rw [abs_le] at hg hp hx
  have x1 : x ≤ I * (1 + E) := by linarith [hx.2]
  have x2 : I * (1 - E) ≤ x := by linarith [hx.1]
  have p1 : p ≤ I * (1 + E) * (1 + 25 / 10 ^ 6) := by
    calc p ≤ x * (1 + 25 / 10 ^ 6) := by linarith [hp.2]
      _ ≤ _ := mul_le_mul_of_nonneg_right x1 (by norm_num)
  have p2 : I * (1 - E) * (1 - 25 / 10 ^ 6) ≤ p := by
    calc _ ≤ x * (1 - 25 / 10 ^ 6) := mul_le_mul_of_nonneg_right x2 (by norm_num)
      _ ≤ p := by linarith [hp.1]
  have IE : 0 ≤ I * E := mul_nonneg I0 E0
  have g1 : g ≤ p * m * (1 + 1 / 2 ^ 24) := by linarith [hg.2]
  have g2 : p * m * (1 - 1 / 2 ^ 24) ≤ g := by linarith [hg.1]
  have pm1 : p * m ≤ I * (1 + E) * (1 + 25 / 10 ^ 6) * m := mul_le_mul_of_nonneg_right p1 m0
  have pm2 : I * (1 - E) * (1 - 25 / 10 ^ 6) * m ≤ p * m := mul_le_mul_of_nonneg_right p2 m0
  have mI : 0 ≤ m * I := mul_nonneg m0 I0
  have mIE : 0 ≤ m * I * E := mul_nonneg mI E0
  rw [abs_le]
  norm_num at *
  constructor <;> nlinarith

/-- The linear gain of the compressor for the envelope `e`, rounding and decibel tables included, against the ideal one. -/
theorem gain_acc {T r m e lev amp : ℚ} (h0 : 0 ≤ r) (h1 : r ≤ 1) (hm : 1 / 2 ^ 100 ≤ m) (he : IsFloat e) (ha0 : 0 < amp)
    (elev : a2db fl32 fl64 e = .ok lev) (eamp : toAmp fl32 fl64 ((Compressor.mk' fl32 T r).gain fl64 lev) = .ok amp)
    {level : ℝ} (hlevel : level = 20 * Real.logb 10 (e : ℝ)) (htop : level ≤ T + 119) :
    (1 / 8 ≤ (e : ℝ) → (e : ℝ) ≤ 8 → |((fl32 (amp * m) : ℚ) : ℝ) - m * (10 : ℝ) ^ ((1 - r) * min 0 (T - level) / 20)| ≤
      45 / 10 ^ 6 * (m * (10 : ℝ) ^ ((1 - r) * min 0 (T - level) / 20))) ∧
    (1 / 1024 ≤ (e : ℝ) → (e : ℝ) ≤ 1024 → |((fl32 (amp * m) : ℚ) : ℝ) - m * (10 : ℝ) ^ ((1 - r) * min 0 (T - level) / 20)| ≤
      3 / 1000 * (m * (10 : ℝ) ^ ((1 - r) * min 0 (T - level) / 20))) ∧
    (1 / 1048576 < (e : ℝ) → (e : ℝ) < 1048576 →
      |((fl32 (amp * m) : ℚ) : ℝ) - m * (10 : ℝ) ^ ((1 - r) * min 0 (T - level) / 20)| ≤
      7 / 100 * (m * (10 : ℝ) ^ ((1 - r) * min 0 (T - level) / 20))) := by
  have m0q : 0 ≤ m := le_trans (by norm_num) hm
  obtain ⟨acc1, acc2, acc3⟩ := C61_a2db_accuracy fl32_lawful fl64_lawful _ lev he elev
  have key : ∀ ε E : ℝ, |(lev : ℝ) - 20 * Real.logb 10 (e : ℝ)| ≤ ε → ε ≤ 1 → Real.exp (0.1152 * (ε + 2 / 10 ^ 5)) ≤ 1 + E →
      |((fl32 (amp * m) : ℚ) : ℝ) - m * (10 : ℝ) ^ ((1 - r) * min 0 (T - level) / 20)|
        ≤ (E * (1 + 26 / 10 ^ 6) + 26 / 10 ^ 6) * (m * (10 : ℝ) ^ ((1 - r) * min 0 (T - level) / 20)) := by
    intro ε E hε hε1 hE
    rw [← hlevel] at hε
    have hl : lev ≤ T + 120 := by
      have : (lev : ℝ) ≤ T + 120 := by linarith [(abs_le.1 hε).2]
      exact_mod_cast this
    obtain ⟨d1, d2, d3⟩ := comp_db (T := T) h0 h1 hl
    have hp := C61_db2a_accuracy fl32_lawful fl64_lawful _ amp (fl32_lawful.rep _) d2 (d3.trans (by norm_num)) eamp
    set x : ℚ := fl32 ((Compressor.mk' fl32 T r).gain fl64 lev) with hx
    set Id : ℝ := (1 - r) * min 0 (T - level) with hId
    have s0 : (0 : ℝ) ≤ 1 - r := by
      have : (r : ℝ) ≤ 1 := by exact_mod_cast h1
      linarith
    have s1 : (1 : ℝ) - r ≤ 1 := by
      have : (0 : ℝ) ≤ r := by exact_mod_cast h0
      linarith
    have lip : |min 0 ((T : ℝ) - lev) - min 0 (T - level)| ≤ ε := by
      refine (abs_min_sub_min_le_max _ _ _ _).trans (max_le (by simp; exact (abs_nonneg _).trans hε) ?_)
      rw [show (T : ℝ) - lev - (T - level) = -(lev - level) by ring, abs_neg]
      exact hε
    have dx : |(x : ℝ) - Id| ≤ ε + 2 / 10 ^ 5 := by
      have d1' : |(x : ℝ) - (1 - r) * min 0 ((T : ℝ) - lev)| ≤ 2 / 10 ^ 5 := by
        have : ((|x - (1 - r) * min 0 (T - lev)| : ℚ) : ℝ) ≤ ((2 / 10 ^ 5 : ℚ) : ℝ) := Rat.cast_le.mpr d1
        push_cast at this
        exact this
      have e2 : (x : ℝ) - Id = ((x : ℝ) - (1 - r) * min 0 ((T : ℝ) - lev)) +
          (1 - r) * (min 0 ((T : ℝ) - lev) - min 0 (T - level)) := by rw [hId]; ring
      rw [e2]
      refine (abs_add_le _ _).trans ?_
      rw [abs_mul, abs_of_nonneg s0]
      have := mul_le_of_le_one_left (abs_nonneg (min 0 ((T : ℝ) - lev) - min 0 (T - level))) s1
      linarith
    have I0 : 0 < (10 : ℝ) ^ (Id / 20) := Real.rpow_pos_of_pos (by norm_num) _
    have lg : 20 * Real.logb 10 ((10 : ℝ) ^ (Id / 20)) = Id := by
      rw [Real.logb_rpow (by norm_num) (by norm_num)]; field_simp
    have hx2 := Decibel.amp_of_level (y := (x : ℝ)) (ε := ε + 2 / 10 ^ 5) I0 (by rw [lg]; exact dx)
    have E0 : 0 ≤ E := by
      have := Real.one_le_exp (x := 0.1152 * (ε + 2 / 10 ^ 5)) (by have := (abs_nonneg _).trans dx; positivity)
      linarith
    have m0 : (0 : ℝ) ≤ m := by exact_mod_cast m0q
    refine rel3 (p := amp) m0 I0.le E0 ?_ hp
      (hx2.trans (mul_le_mul_of_nonneg_left (by linarith) I0.le))
    -- the product with the make-up gain is a normal number
    have ha1 : 1 / 2 ^ 20 ≤ amp := by
      have := (C61_db2a_saturates (fl := fl32) (fd := fl64) (-120)).2 le_rfl
      have hmono := C61_db2a_mono fl32_lawful fl64_lawful (-120) x _ amp ⟨-120, 0, by norm_num, by norm_num, by norm_num⟩
        (fl32_lawful.rep _) d2 this eamp
      refine le_trans (fl32_lawful.ge_of_rep ⟨1, -20, by norm_num, by norm_num, by norm_num⟩ (by norm_num)) hmono
    have pm : 1 / 2 ^ 120 ≤ amp * m := by
      calc (1 / 2 ^ 120 : ℚ) = 1 / 2 ^ 20 * (1 / 2 ^ 100) := by norm_num
        _ ≤ _ := mul_le_mul ha1 hm (by norm_num) ha0.le
    have er : |fl32 (amp * m) - amp * m| ≤ amp * m / 2 ^ 24 := by
      have pp : 0 < amp * m := lt_of_lt_of_le (by norm_num) pm
      refine (fl32_lawful.err _).trans (max_le (by rw [abs_of_pos pp]) ?_)
      have t : (2 : ℚ) ^ (-149 : ℤ) / 2 ≤ 1 / 2 ^ 120 / 2 ^ 24 := by
        rw [show (-149 : ℤ) = -((149 : ℕ) : ℤ) by norm_num, zpow_neg, zpow_natCast]; norm_num
      exact t.trans (div_le_div_of_nonneg_right pm (by norm_num))
    have := (Rat.cast_le (K := ℝ)).mpr er
    push_cast at this
    exact this
  have ex : ∀ z : ℝ, 0 ≤ z → z ≤ 1 → Real.exp z ≤ 1 + (z + z ^ 2) := fun z z0 z1 => by
    have := Real.abs_exp_sub_one_sub_id_le (x := z) (by rw [abs_of_nonneg z0]; exact z1)
    linarith [(abs_le.1 this).2]
  have pos : 0 ≤ (m : ℝ) * (10 : ℝ) ^ ((1 - r) * min 0 (T - level) / 20) :=
    mul_nonneg (by exact_mod_cast m0q) (Real.rpow_pos_of_pos (by norm_num) _).le
  refine ⟨fun k1 k2 => ?_, fun k1 k2 => ?_, fun k1 k2 => ?_⟩
  · refine (key _ _ (acc1 (by
      have : ((1 / 8 : ℚ) : ℝ) ≤ e := by push_cast; exact k1
      exact_mod_cast this) (by exact_mod_cast k2)) (by norm_num) (ex _ (by norm_num) (by norm_num))).trans
      (mul_le_mul_of_nonneg_right (by norm_num) pos)
  · refine (key _ _ (acc2 (by
      have : ((1 / 1024 : ℚ) : ℝ) ≤ e := by push_cast; exact k1
      exact_mod_cast this) (by exact_mod_cast k2)) (by norm_num) (ex _ (by norm_num) (by norm_num))).trans
      (mul_le_mul_of_nonneg_right (by norm_num) pos)
  · refine (key _ _ (acc3 (by
      have : ((1 / 1048576 : ℚ) : ℝ) < e := by push_cast; exact k1
      exact_mod_cast this) (by exact_mod_cast k2)) (by norm_num) (ex _ (by norm_num) (by norm_num))).trans
      (mul_le_mul_of_nonneg_right (by norm_num) pos)

end Cond

/-- **C78** The gain applied is that of the gate envelope times the make-up gain times the ideal compressor for the measured
level `20 log10(envelope)`: 0 dB up to the threshold, `-(1 - ratio)` dB per dB above it; within 45 parts in a million for
envelopes in [1/8, 8], 0.3 % in [1/1024, 1024], 7 % in (2^-20, 2^20). -/
theorem C78_gain (cfg : Config) (sps : Nat) (h : cfg.Ok sps) (hm : 1 / 2 ^ 100 ≤ cfg.compGain) (c : SigCond)
    (hc : Reach cfg sps c) (s : ℚ) (hs : IsFloat s) :
    ∃ (c' : SigCond) (g : ℚ), c.feed fl32 fl64 s = .ok (c', fl32 (fl32 (s * c'.gateEnv.y) * g)) ∧
      ∀ e level ideal : ℝ, e = c'.env.y → level = 20 * Real.logb 10 e →
        ideal = cfg.compGain * (10 : ℝ) ^ ((1 - cfg.compSlope) * min 0 (cfg.compThreshold - level) / 20) →
        level ≤ cfg.compThreshold + 119 →
        (1 / 8 ≤ e → e ≤ 8 → |g - ideal| ≤ 45 / 10 ^ 6 * ideal) ∧
        (1 / 1024 ≤ e → e ≤ 1024 → |g - ideal| ≤ 3 / 1000 * ideal) ∧
        (1 / 1048576 < e → e < 1048576 → |g - ideal| ≤ 7 / 100 * ideal) := by
  obtain ⟨i, hcomp, hmk⟩ := reach_inv h hc
  obtain ⟨c', lev, amp, e, i', -, -, -, -, -, -, -, -, elev, eamp, -, ha0, -⟩ := feed_ok i hs
  rw [hmk] at e
  rw [hcomp] at eamp
  refine ⟨c', _, e, ?_⟩
  rintro ev level ideal rfl hlevel rfl htop
  exact gain_acc h.slope0 h.slope1 hm i'.ey ha0 elev eamp hlevel htop
end Verif
