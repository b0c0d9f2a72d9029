import Verif.Model.CompChain
import Verif.Props.ConditionerMore
/-!
# C103: gain processors applied to a signal

Binary32/binary64 rounding included (`fl32`, `fl64`), decibel tables included.
-/
namespace Verif
open Rounding Dyn Follow Decibel Cond

namespace Chain

/-- The effect of a chain on one sample: at most the sample times the make-up gain, same sign. -/
def Tame (makeup s y : ℚ) : Prop := |y| ≤ fl32 (|s| * makeup) ∧ (0 ≤ s → 0 ≤ y) ∧ (s ≤ 0 → y ≤ 0)

theorem apply_ok {gain : ℚ → ℚ} (hg : ∀ x, gain x ≤ 0) {m env s : ℚ} (hm : IsFloat m) (m0 : 0 ≤ m) (he : IsFloat env) (e0 : 0 ≤ env) :
    ∃ lev amp, a2db fl32 fl64 env = .ok lev ∧ toAmp fl32 fl64 (gain lev) = .ok amp ∧ 0 < amp ∧
      apply fl32 fl64 gain m env s = .ok (fl32 (s * fl32 (amp * m))) ∧ Tame m s (fl32 (s * fl32 (amp * m))) := by
  obtain ⟨lev, elev, -⟩ := (C61_a2db_total fl32_lawful fl64_lawful _ he).1 e0
  obtain ⟨amp, eamp, -, h0, h1⟩ := toAmp_total (gain lev)
  refine ⟨lev, amp, elev, eamp, h0, ?_, ?_⟩
  · unfold apply
    rw [elev, bind_ok, eamp, bind_ok]
    rfl
  have g0 : 0 ≤ fl32 (amp * m) := fl32_lawful.nonneg (by positivity)
  have g1 : fl32 (amp * m) ≤ m := fl32_lawful.le_of_rep hm (mul_le_of_le_one_left m0 (h1 (hg _)))
  refine ⟨?_, fun hs => fl32_lawful.nonneg (mul_nonneg hs g0), fun hs =>
    fnonpos fl32_lawful (by norm_num) (mul_nonpos_of_nonpos_of_nonneg hs g0)⟩
  have : |s * fl32 (amp * m)| ≤ |s| * m := by
    rw [abs_mul, abs_of_nonneg g0]
    exact mul_le_mul_of_nonneg_left g1 (abs_nonneg _)
  rw [abs_le] at this ⊢
  exact ⟨by rw [← fl32_lawful.neg]; exact fl32_lawful.mono _ _ this.1, fl32_lawful.mono _ _ this.2⟩

theorem apply_quiet {gain : ℚ → ℚ} {m env s lev : ℚ} (hm : IsFloat m) (e : a2db fl32 fl64 env = .ok lev) (hg : gain lev = 0) :
    apply fl32 fl64 gain m env s = .ok (fl32 (s * m)) := by
  unfold apply
  rw [e, bind_ok, hg]
  unfold toAmp
  rw [fl32_lawful.zero, db2a_zero, bind_ok, one_mul, fl32_lawful.fix m hm]
  rfl

/-- The invariant of the followers. -/
structure EInv (e : EnvFollower) : Prop where
  y : IsFloat e.y
  y0 : 0 ≤ e.y
  a : Env.IsRate e.attack
  r : Env.IsRate e.release

theorem einv_mk {at_ re : ℚ} {sps : Nat} (h1 : 1255 / 1000 ≤ sps * at_) (h2 : 1255 / 1000 ≤ sps * re) :
    EInv (EnvFollower.mk' fl32 fl64 at_ re sps) :=
  ⟨isFloat_zero, le_rfl, Env.coef_rate fl32_lawful fl64_lawful h1, Env.coef_rate fl32_lawful fl64_lawful h2⟩

theorem einv_feed {e : EnvFollower} (i : EInv e) {s : ℚ} (hs : IsFloat s) (s0 : 0 ≤ s) :
    EInv (e.feed fl32 s).1 ∧ (e.feed fl32 s).2 = (e.feed fl32 s).1.y ∧ (e.feed fl32 s).1.y ≤ max s e.y := by
  obtain ⟨h1, h2, h3, h4⟩ := env_feed fl32_lawful i.a i.r i.y hs
  have hy : (e.feed fl32 s).2 = (e.feed fl32 s).1.y := rfl
  rw [hy] at h1 h2 h3
  exact ⟨⟨h3, le_trans (le_min s0 i.y0) h1, i.a, i.r⟩, rfl, h2⟩

/-- A chain that succeeds on each sample from good states succeeds on every signal. -/
theorem run {σ : Type} {step : σ → ℚ → C (σ × ℚ)} {I : σ → Prop} {P : ℚ → Prop} {Q : ℚ → ℚ → Prop}
    (h : ∀ e s, I e → P s → ∃ e' y, step e s = .ok (e', y) ∧ I e' ∧ Q s y) (e : σ) (i : I e) (xs : List ℚ) (hx : ∀ x ∈ xs, P x) :
    ∃ e' ys, runC step e xs = .ok (e', ys) ∧ I e' ∧ List.Forall₂ Q xs ys := by
  induction xs generalizing e with
  | nil => exact ⟨e, [], rfl, i, .nil⟩
  | cons x xs ih =>
    obtain ⟨e1, y, h1, i1, q⟩ := h e x i (hx x (by simp))
    obtain ⟨e2, ys, h2, i2, f⟩ := ih e1 i1 (fun z hz => hx z (by simp [hz]))
    refine ⟨e2, y :: ys, ?_, i2, .cons q f⟩
    rw [runC, h1]
    simp only [bind, Except.bind, h2]
    rfl

theorem ff_ok {gain : ℚ → ℚ} (hg : ∀ x, gain x ≤ 0) {m : ℚ} (hm : IsFloat m) (m0 : 0 ≤ m) {e : EnvFollower} (i : EInv e) {s : ℚ}
    (hs : IsFloat s) : ∃ e' y, ffStep fl32 fl64 gain m e s = .ok (e', y) ∧ EInv e' ∧ Tame m s y ∧
      e' = (e.feed fl32 |s|).1 ∧ apply fl32 fl64 gain m e'.y s = .ok y := by
  obtain ⟨i', h1, -⟩ := einv_feed i (isFloat_abs hs) (abs_nonneg s)
  obtain ⟨lev, amp, -, -, -, ea, t⟩ := apply_ok hg hm m0 (s := s) i'.y i'.y0
  refine ⟨_, _, ?_, i', t, rfl, ea⟩
  unfold ffStep
  simp only []
  rw [h1, ea, bind_ok]
  rfl

theorem fb_ok {gain : ℚ → ℚ} (hg : ∀ x, gain x ≤ 0) {m : ℚ} (hm : IsFloat m) (m0 : 0 ≤ m) {e : EnvFollower} (i : EInv e) (s : ℚ) :
    ∃ e' y, fbStep fl32 fl64 gain m e s = .ok (e', y) ∧ EInv e' ∧ Tame m s y ∧
      e' = (e.feed fl32 |y|).1 ∧ e'.y ≤ max |y| e.y ∧ apply fl32 fl64 gain m e.y s = .ok y := by
  obtain ⟨lev, amp, -, -, -, ea, t⟩ := apply_ok hg hm m0 (s := s) i.y i.y0
  obtain ⟨i', h1, h2⟩ := einv_feed i (s := |fl32 (s * fl32 (amp * m))|) (isFloat_abs (fl32_lawful.rep _)) (abs_nonneg _)
  refine ⟨_, _, ?_, i', t, rfl, h2, ea⟩
  unfold fbStep
  rw [ea, bind_ok]
  rfl

theorem pk_ok {gain : ℚ → ℚ} (hg : ∀ x, gain x ≤ 0) {m : ℚ} (hm : IsFloat m) (m0 : 0 ≤ m) {e : PeakFollower}
    (i : IsFloat e.y ∧ 0 ≤ e.y ∧ Env.IsRate e.release) {s : ℚ} (hs : IsFloat s) :
    ∃ e' y, pkStep fl32 fl64 gain m e s = .ok (e', y) ∧ (IsFloat e'.y ∧ 0 ≤ e'.y ∧ Env.IsRate e'.release) ∧ Tame m s y ∧
      |s| ≤ e'.y ∧ e'.y ≤ max |s| e.y ∧ apply fl32 fl64 gain m e'.y s = .ok y := by
  obtain ⟨p1, p2, p3, p4, p5⟩ := peak_feed i.2.2 i.1 (isFloat_abs hs)
  have p0 := le_trans (abs_nonneg s) p1
  obtain ⟨lev, amp, -, -, -, ea, t⟩ := apply_ok hg hm m0 (s := s) p3 p0
  refine ⟨_, _, ?_, ⟨p3, p0, by rw [p5]; exact i.2.2⟩, t, p1, p2, ea⟩
  unfold pkStep
  simp only []
  rw [p4, ea, bind_ok]
  rfl

end Chain
open Chain

/-- **C103** Never fails, never boosts beyond the make-up gain, keeps the sign: the three chains, with any processor whose
gain is at most 0 dB, on every signal. -/
theorem C103_total (gain : ℚ → ℚ) (hg : ∀ x, gain x ≤ 0) (m : ℚ) (hm : IsFloat m) (m0 : 0 ≤ m) (attack release : ℚ) (sps : Nat)
    (h1 : 1255 / 1000 ≤ sps * attack) (h2 : 1255 / 1000 ≤ sps * release) (xs : List ℚ) (hx : ∀ x ∈ xs, IsFloat x) :
    (∃ e ys, runC (ffStep fl32 fl64 gain m) (EnvFollower.mk' fl32 fl64 attack release sps) xs = .ok (e, ys) ∧
      List.Forall₂ (Tame m) xs ys) ∧
    (∃ e ys, runC (fbStep fl32 fl64 gain m) (EnvFollower.mk' fl32 fl64 attack release sps) xs = .ok (e, ys) ∧
      List.Forall₂ (Tame m) xs ys) ∧
    (∃ e ys, runC (pkStep fl32 fl64 gain m) (PeakFollower.mk' fl32 fl64 release sps) xs = .ok (e, ys) ∧
      List.Forall₂ (Tame m) xs ys) := by
  refine ⟨?_, ?_, ?_⟩
  · obtain ⟨e, ys, h, -, f⟩ := run (step := ffStep fl32 fl64 gain m) (I := EInv) (P := IsFloat) (Q := Tame m) (fun e s i hs => by
      obtain ⟨e', y, h, i', t, -⟩ := ff_ok hg hm m0 i hs
      exact ⟨e', y, h, i', t⟩) _ (einv_mk h1 h2) xs hx
    exact ⟨e, ys, h, f⟩
  · obtain ⟨e, ys, h, -, f⟩ := run (step := fbStep fl32 fl64 gain m) (I := EInv) (P := IsFloat) (Q := Tame m) (fun e s i hs => by
      obtain ⟨e', y, h, i', t, -⟩ := fb_ok hg hm m0 i s
      exact ⟨e', y, h, i', t⟩) _ (einv_mk h1 h2) xs hx
    exact ⟨e, ys, h, f⟩
  · obtain ⟨e, ys, h, -, f⟩ := run (step := pkStep fl32 fl64 gain m) (I := fun e => IsFloat e.y ∧ 0 ≤ e.y ∧ Env.IsRate e.release)
      (P := IsFloat) (Q := Tame m) (fun e s i hs => by
        obtain ⟨e', y, h, i', t, -⟩ := pk_ok hg hm m0 i hs
        exact ⟨e', y, h, i', t⟩) (PeakFollower.mk' fl32 fl64 release sps)
      ⟨isFloat_zero, le_rfl, Env.coef_rate fl32_lawful fl64_lawful h2⟩ xs hx
    exact ⟨e, ys, h, f⟩

/-- **C103** The processors of the library qualify: hard knee and soft knee compressor with a ratio in [0, 1], expander with a
nonnegative ratio. -/
theorem C103_processors (T W r : ℚ) (hT : Rep 53 (-1074) T) (hW : 0 ≤ W) (h0 : 0 ≤ r) :
    (r ≤ 1 → ∀ x, (Compressor.mk' fl32 T r).gain fl64 x ≤ 0) ∧ (r ≤ 1 → ∀ x, (SoftKnee.mk' fl32 fl64 T W r).gain fl64 x ≤ 0) ∧
      (∀ x, (Expander.mk' T r).gain fl64 x ≤ 0) :=
  ⟨fun h1 => (C47_never_boosts T r h0 h1).2.1, fun h1 => (C48_never_boosts T W r hW h0 h1 hT).2.1, (C49_expander T r h0).2.1⟩

/-- **C103** A signal whose peaks stay at or below the threshold passes a compressor unchanged except for the make-up gain, bit
for bit; in the feedback chain, this holds when the amplified peaks do. -/
theorem C103_quiet (T r : ℚ) (h0 : 0 ≤ r) (h1 : r ≤ 1) (m : ℚ) (hm : IsFloat m) (m0 : 0 ≤ m) (attack release : ℚ) (sps : Nat)
    (ha : 1255 / 1000 ≤ sps * attack) (hr : 1255 / 1000 ≤ sps * release) (p lev : ℚ) (hp : IsFloat p) (p0 : 0 ≤ p)
    (hl : a2db fl32 fl64 p = .ok lev) (hT : lev ≤ T) (xs : List ℚ) (hx : ∀ x ∈ xs, IsFloat x) :
    ((∀ x ∈ xs, |x| ≤ p) → ∃ e, runC (ffStep fl32 fl64 ((Compressor.mk' fl32 T r).gain fl64) m)
        (EnvFollower.mk' fl32 fl64 attack release sps) xs = .ok (e, xs.map fun x => fl32 (x * m))) ∧
    ((∀ x ∈ xs, |x| ≤ p) → ∃ e, runC (pkStep fl32 fl64 ((Compressor.mk' fl32 T r).gain fl64) m)
        (PeakFollower.mk' fl32 fl64 release sps) xs = .ok (e, xs.map fun x => fl32 (x * m))) ∧
    ((∀ x ∈ xs, fl32 (|x| * m) ≤ p) → ∃ e, runC (fbStep fl32 fl64 ((Compressor.mk' fl32 T r).gain fl64) m)
        (EnvFollower.mk' fl32 fl64 attack release sps) xs = .ok (e, xs.map fun x => fl32 (x * m))) := by
  have hg := C47_never_boosts T r h0 h1
  have low : ∀ env s, IsFloat env → 0 ≤ env → env ≤ p →
      apply fl32 fl64 ((Compressor.mk' fl32 T r).gain fl64) m env s = .ok (fl32 (s * m)) := by
    intro env s hf e0 hle
    obtain ⟨v, ev, -⟩ := (C61_a2db_total fl32_lawful fl64_lawful _ hf).1 e0
    exact apply_quiet hm ev (hg.1 _ (le_trans (C61_a2db_mono fl32_lawful fl64_lawful env p v lev hf hp e0 hle ev hl) hT))
  have fin : ∀ {xs ys : List ℚ}, List.Forall₂ (fun s y => y = fl32 (s * m)) xs ys → ys = xs.map fun x => fl32 (x * m) := by
    intro xs ys f
    induction f with
    | nil => rfl
    | cons h _ ih => rw [List.map_cons, h, ih]
  refine ⟨fun hq => ?_, fun hq => ?_, fun hq => ?_⟩
  · obtain ⟨e, ys, h, -, f⟩ := run (step := ffStep fl32 fl64 ((Compressor.mk' fl32 T r).gain fl64) m)
      (I := fun e => EInv e ∧ e.y ≤ p) (P := fun x => IsFloat x ∧ |x| ≤ p) (Q := fun s y => y = fl32 (s * m))
      (fun e s i hs => by
        obtain ⟨e', y, h, i', -, he, hy⟩ := ff_ok hg.2.1 hm m0 i.1 hs.1
        have hle : e'.y ≤ p := by
          rw [he]; exact (einv_feed i.1 (isFloat_abs hs.1) (abs_nonneg s)).2.2.trans (max_le hs.2 i.2)
        rw [low _ _ i'.y i'.y0 hle] at hy
        injection hy with hy
        exact ⟨e', y, h, ⟨i', hle⟩, hy.symm⟩) _ ⟨einv_mk ha hr, p0⟩ xs (fun x h => ⟨hx x h, hq x h⟩)
    exact ⟨e, by rw [h, fin f]⟩
  · obtain ⟨e, ys, h, -, f⟩ := run (step := pkStep fl32 fl64 ((Compressor.mk' fl32 T r).gain fl64) m)
      (I := fun e => (IsFloat e.y ∧ 0 ≤ e.y ∧ Env.IsRate e.release) ∧ e.y ≤ p) (P := fun x => IsFloat x ∧ |x| ≤ p)
      (Q := fun s y => y = fl32 (s * m))
      (fun e s i hs => by
        obtain ⟨e', y, h, i', -, -, he, hy⟩ := pk_ok hg.2.1 hm m0 i.1 hs.1
        have hle : e'.y ≤ p := he.trans (max_le hs.2 i.2)
        rw [low _ _ i'.1 i'.2.1 hle] at hy
        injection hy with hy
        exact ⟨e', y, h, ⟨i', hle⟩, hy.symm⟩) (PeakFollower.mk' fl32 fl64 release sps)
      ⟨⟨isFloat_zero, le_rfl, Env.coef_rate fl32_lawful fl64_lawful hr⟩, p0⟩ xs (fun x h => ⟨hx x h, hq x h⟩)
    exact ⟨e, by rw [h, fin f]⟩
  · obtain ⟨e, ys, h, -, f⟩ := run (step := fbStep fl32 fl64 ((Compressor.mk' fl32 T r).gain fl64) m)
      (I := fun e => EInv e ∧ e.y ≤ p) (P := fun x => IsFloat x ∧ fl32 (|x| * m) ≤ p) (Q := fun s y => y = fl32 (s * m))
      (fun e s i hs => by
        obtain ⟨e', y, h, i', t, -, he, hy⟩ := fb_ok hg.2.1 hm m0 i.1 s
        have hle : e'.y ≤ p := he.trans (max_le (t.1.trans hs.2) i.2)
        rw [low _ _ i.1.y i.1.y0 i.2] at hy
        injection hy with hy
        exact ⟨e', y, h, ⟨i', hle⟩, hy.symm⟩) _ ⟨einv_mk ha hr, p0⟩ xs (fun x h => ⟨hx x h, hq x h⟩)
    exact ⟨e, by rw [h, fin f]⟩

/-- **C103** An expander behind a peak follower lets every sample at or above the threshold pass unchanged (make-up gain apart), bit for
bit, whatever came before;
more generally every sample that finds the follower at `p` or more. -/
theorem C103_expander (T r : ℚ) (h0 : 0 ≤ r) (m : ℚ) (hm : IsFloat m) (m0 : 0 ≤ m) (release : ℚ) (sps : Nat)
    (hr : 1255 / 1000 ≤ sps * release) (p lev : ℚ) (hp : IsFloat p) (p0 : 0 ≤ p)
    (hl : a2db fl32 fl64 p = .ok lev) (hT : T ≤ lev) (xs : List ℚ) (hx : ∀ x ∈ xs, IsFloat x) (s : ℚ) (hs : IsFloat s) :
    ∃ e ys e' y, runC (pkStep fl32 fl64 ((Expander.mk' T r).gain fl64) m) (PeakFollower.mk' fl32 fl64 release sps) xs = .ok (e, ys) ∧
      pkStep fl32 fl64 ((Expander.mk' T r).gain fl64) m e s = .ok (e', y) ∧ |s| ≤ e'.y ∧
      (p ≤ e'.y → y = fl32 (s * m)) ∧ (p ≤ |s| → y = fl32 (s * m)) := by
  have hg := C49_expander T r h0
  obtain ⟨e, ys, h, i, -⟩ := run (step := pkStep fl32 fl64 ((Expander.mk' T r).gain fl64) m)
    (I := fun e => IsFloat e.y ∧ 0 ≤ e.y ∧ Env.IsRate e.release) (P := IsFloat) (Q := Tame m) (fun e s i hs => by
      obtain ⟨e', y, h, i', t, -⟩ := pk_ok hg.2.1 hm m0 i hs
      exact ⟨e', y, h, i', t⟩) (PeakFollower.mk' fl32 fl64 release sps)
    ⟨isFloat_zero, le_rfl, Env.coef_rate fl32_lawful fl64_lawful hr⟩ xs hx
  obtain ⟨e', y, h', i', -, hle, -, hy⟩ := pk_ok hg.2.1 hm m0 i hs
  have main : p ≤ e'.y → y = fl32 (s * m) := by
    intro hpe
    obtain ⟨v, ev, -⟩ := (C61_a2db_total fl32_lawful fl64_lawful _ i'.1).1 i'.2.1
    rw [apply_quiet hm ev (hg.1 _ (le_trans hT (C61_a2db_mono fl32_lawful fl64_lawful p _ lev v hp i'.1 p0 hpe hl ev)))] at hy
    injection hy with hy
    exact hy.symm
  exact ⟨e, ys, e', y, h, h', hle, main, fun hps => main (hps.trans hle)⟩

namespace Chain

/-- Levels of two amplitudes with a small relative distance. -/
theorem level_close {g i ε : ℝ} (i0 : 0 < i) (h0 : 0 ≤ ε) (h1 : ε ≤ 1 / 100) (h : |g - i| ≤ ε * i) :
    0 < g ∧ |20 * Real.logb 10 g - 20 * Real.logb 10 i| ≤ 9 * ε := by
  rw [abs_le] at h
  have g0 : 0 < g := by nlinarith
  refine ⟨g0, ?_⟩
  have l10 : 0 < Real.log 10 := Real.log_pos (by norm_num)
  have l2 : (2.302 : ℝ) < Real.log 10 := by
    have h2 := Real.log_two_gt_d9
    have h3 : 3 * Real.log 2 + Real.log (5 / 4) = Real.log 10 := by
      rw [show (3 : ℝ) * Real.log 2 = Real.log (2 ^ 3) by rw [Real.log_pow]; norm_num, ← Real.log_mul (by norm_num) (by norm_num)]
      norm_num
    have h4 : 1 - (5 / 4 : ℝ)⁻¹ ≤ Real.log (5 / 4) := Real.one_sub_inv_le_log_of_pos (by norm_num)
    have h5 : (0.2230 : ℝ) < Real.log (5 / 4) := by
      have := Real.sum_range_le_log_div (x := 1 / 9) (by norm_num) (by norm_num) 2
      norm_num [Finset.sum_range_succ] at this ⊢
      linarith
    linarith
  have up : Real.log (g / i) ≤ g / i - 1 := Real.log_le_sub_one_of_pos (by positivity)
  have dn : 1 - (g / i)⁻¹ ≤ Real.log (g / i) := Real.one_sub_inv_le_log_of_pos (by positivity)
  have e : 20 * Real.logb 10 g - 20 * Real.logb 10 i = 20 / Real.log 10 * Real.log (g / i) := by
    rw [Real.log_div g0.ne' i0.ne', Real.logb, Real.logb]; ring
  have b1 : g / i - 1 ≤ ε := by
    rw [sub_le_iff_le_add, div_le_iff₀ i0]; nlinarith [h.2]
  have b2 : -(ε / (1 - ε)) ≤ 1 - (g / i)⁻¹ := by
    rw [inv_div]
    have : i / g ≤ 1 / (1 - ε) := by
      rw [div_le_div_iff₀ g0 (by linarith)]; nlinarith [h.1]
    have e2 : 1 / (1 - ε) = 1 + ε / (1 - ε) := by
      have : (1 - ε) ≠ 0 := by linarith
      field_simp
      ring
    linarith
  have b3 : ε / (1 - ε) ≤ 100 / 99 * ε := by
    rw [div_le_iff₀ (by linarith)]; nlinarith
  rw [e, abs_mul, abs_of_pos (by positivity)]
  have b4 : |Real.log (g / i)| ≤ 100 / 99 * ε := by rw [abs_le]; constructor <;> linarith
  rw [div_mul_eq_mul_div, div_le_iff₀ l10]
  have := abs_nonneg (Real.log (g / i))
  nlinarith

end Chain

/-- **C103** The factor applied by a compressor chain is the make-up gain times the ideal compressor for the level of the envelope
in use, within 45 parts in a million for envelopes in [1/8, 8], 0.3 % in [1/1024, 1024], 7 % in (2^-20, 2^20).  The envelope is that of
the input with the current sample (feed-forward), or that of the earlier outputs (feedback). -/
theorem C103_gain (T r : ℚ) (h0 : 0 ≤ r) (h1 : r ≤ 1) (m : ℚ) (hm : IsFloat m) (hm1 : 1 / 2 ^ 100 ≤ m) (attack release : ℚ) (sps : Nat)
    (ha : 1255 / 1000 ≤ sps * attack) (hr : 1255 / 1000 ≤ sps * release) (xs : List ℚ) (hx : ∀ x ∈ xs, IsFloat x) (s : ℚ) (hs : IsFloat s) :
    let good (env : ℚ) (g : ℚ) : Prop := ∀ e level ideal : ℝ, e = env → level = 20 * Real.logb 10 e →
        ideal = m * (10 : ℝ) ^ ((1 - r) * min 0 (T - level) / 20) → level ≤ T + 119 →
        (1 / 8 ≤ e → e ≤ 8 → |g - ideal| ≤ 45 / 10 ^ 6 * ideal) ∧
        (1 / 1024 ≤ e → e ≤ 1024 → |g - ideal| ≤ 3 / 1000 * ideal) ∧
        (1 / 1048576 < e → e < 1048576 → |g - ideal| ≤ 7 / 100 * ideal)
    let comp := (Compressor.mk' fl32 T r).gain fl64
    (∃ e ys e' g, runC (ffStep fl32 fl64 comp m) (EnvFollower.mk' fl32 fl64 attack release sps) xs = .ok (e, ys) ∧
      ffStep fl32 fl64 comp m e s = .ok (e', fl32 (s * g)) ∧ e' = (e.feed fl32 |s|).1 ∧ good e'.y g) ∧
    (∃ e ys e' g, runC (fbStep fl32 fl64 comp m) (EnvFollower.mk' fl32 fl64 attack release sps) xs = .ok (e, ys) ∧
      fbStep fl32 fl64 comp m e s = .ok (e', fl32 (s * g)) ∧ e' = (e.feed fl32 |fl32 (s * g)|).1 ∧
      e = final (EnvFollower.feed fl32) (EnvFollower.mk' fl32 fl64 attack release sps) (ys.map fun y => |y|) ∧ good e.y g) := by
  intro good comp
  have m0 : 0 ≤ m := le_trans (by norm_num) hm1
  have hg := (C47_never_boosts T r h0 h1).2.1
  have key : ∀ env, IsFloat env → 0 ≤ env → ∃ g, apply fl32 fl64 comp m env s = .ok (fl32 (s * g)) ∧ good env g := by
    intro env he e0
    obtain ⟨lev, amp, elev, eamp, ha0, ea, -⟩ := apply_ok hg hm m0 (s := s) he e0
    refine ⟨_, ea, ?_⟩
    rintro e level ideal rfl hlevel rfl htop
    exact gain_acc h0 h1 hm1 he ha0 elev eamp hlevel htop
  constructor
  · obtain ⟨e, ys, h, i, -⟩ := run (step := ffStep fl32 fl64 comp m) (I := EInv) (P := IsFloat) (Q := Tame m) (fun e s i hs => by
      obtain ⟨e', y, h, i', t, -⟩ := ff_ok hg hm m0 i hs
      exact ⟨e', y, h, i', t⟩) _ (einv_mk ha hr) xs hx
    obtain ⟨e', y, h', i', -, he, hy⟩ := ff_ok hg hm m0 i hs
    obtain ⟨g, hg', k⟩ := key _ i'.y i'.y0
    rw [hg'] at hy
    injection hy with hy
    rw [← hy] at h'
    exact ⟨e, ys, e', g, h, h', he, k⟩
  · have hrun : ∀ (e0 : EnvFollower), EInv e0 → ∃ e ys, runC (fbStep fl32 fl64 comp m) e0 xs = .ok (e, ys) ∧ EInv e ∧
        e = final (EnvFollower.feed fl32) e0 (ys.map fun y => |y|) := by
      clear hx
      induction xs with
      | nil => intro e0 i; exact ⟨e0, [], rfl, i, rfl⟩
      | cons x xs ih =>
        intro e0 i
        obtain ⟨e1, y, e, i1, -, he, -⟩ := fb_ok hg hm m0 i x
        obtain ⟨e2, ys, e3, i2, h2⟩ := ih e1 i1
        refine ⟨e2, y :: ys, ?_, i2, ?_⟩
        · rw [runC, e]
          simp only [bind, Except.bind, e3]
          rfl
        · rw [h2, he]; rfl
    obtain ⟨e, ys, h, i, hf⟩ := hrun _ (einv_mk ha hr)
    obtain ⟨e', y, h', i', -, he, -, hy⟩ := fb_ok hg hm m0 i s
    obtain ⟨g, hg', k⟩ := key _ i.y i.y0
    rw [hg'] at hy
    injection hy with hy
    rw [← hy] at h' he
    exact ⟨e, ys, e', g, h, h', he, hf, k⟩

/-- **C103** The feedback chain does not compress by the nominal ratio: when the output level `L` has settled (it differs from the
level of the envelope by at most `δ` dB) above the threshold, it is, within `δ + 1/1000` dB, the level of the amplified input compressed
by `1 / (2 - ratio)` above the threshold (4 : 1 becomes 1.75 : 1). -/
theorem C103_feedback_law (T r : ℚ) (h0 : 0 ≤ r) (h1 : r ≤ 1) (m : ℚ) (hm : IsFloat m) (hm1 : 1 / 2 ^ 100 ≤ m)
    (e : EnvFollower) (he : IsFloat e.y) (hlo : 1 / 8 ≤ e.y) (hhi : e.y ≤ 8) (s : ℚ)
    (e' : EnvFollower) (y : ℚ) (hf : fbStep fl32 fl64 ((Compressor.mk' fl32 T r).gain fl64) m e s = .ok (e', y)) (hy : 1 / 2 ^ 30 ≤ |y|)
    (dB : ℝ → ℝ) (hdB : ∀ x, dB x = 20 * Real.logb 10 x) (δ : ℝ) (hδ : |dB e.y - dB (abs y)| ≤ δ)
    (hT : T ≤ dB e.y) (hT2 : dB e.y ≤ T + 119) :
    |dB (abs y) - (T + (dB (abs s * m) - T) / (2 - r))| ≤ δ + 1 / 1000 := by
  have m0 : 0 ≤ m := le_trans (by norm_num) hm1
  have hg := (C47_never_boosts T r h0 h1).2.1
  obtain ⟨lev, amp, elev, eamp, ha0, ea, -⟩ := apply_ok hg hm m0 (s := s) he (le_trans (by norm_num) hlo)
  unfold fbStep at hf
  rw [ea, bind_ok] at hf
  injection hf with hf
  injection hf with _ hf
  have acc := (gain_acc h0 h1 hm1 he ha0 elev eamp (hdB e.y) hT2).1 (by
    have := (Rat.cast_le (K := ℝ)).mpr hlo
    push_cast at this
    exact this) (by exact_mod_cast hhi)
  set g := fl32 (amp * m) with hgdef
  rw [min_eq_right (by linarith)] at acc
  have mR : (0 : ℝ) < m := by
    have : (0 : ℚ) < m := lt_of_lt_of_le (by norm_num) hm1
    exact_mod_cast this
  have I0 : 0 < (10 : ℝ) ^ ((1 - r) * (T - dB e.y) / 20) := Real.rpow_pos_of_pos (by norm_num) _
  obtain ⟨g0, lg⟩ := level_close (mul_pos mR I0) (by norm_num) (by norm_num) acc
  -- the product with the sample
  have s0 : 0 < |s| := by
    rcases (abs_nonneg s).eq_or_lt with h | h
    · rw [abs_eq_zero.1 h.symm, zero_mul, fl32_lawful.zero] at hf
      rw [← hf] at hy
      norm_num at hy
    · exact h
  have er : |abs y - |s| * g| ≤ 1 / 2 ^ 20 * (|s| * g) := by
    have gq : 0 < g := by exact_mod_cast g0
    have e1 := fl32_lawful.err (s * g)
    rw [hf] at e1
    have e2 : |abs y - |s| * g| ≤ |y - s * g| := by
      have := abs_abs_sub_abs_le y (s * g)
      rwa [abs_mul s g, abs_of_pos gq] at this
    rw [abs_mul, abs_of_pos gq] at e1
    have p0 : 0 < |s| * g := mul_pos s0 gq
    have t : (2 : ℚ) ^ (-149 : ℤ) / 2 ≤ 1 / 2 ^ 60 := by
      rw [show (-149 : ℤ) = -((149 : ℕ) : ℤ) by norm_num, zpow_neg, zpow_natCast]; norm_num
    have e3 := (e2.trans e1).trans (max_le_add_of_nonneg (by positivity) (by positivity))
    have e4 := (abs_le.1 e3).2
    norm_num at *
    linarith
  have erR : |abs (y : ℝ) - |(s : ℝ)| * g| ≤ 1 / 2 ^ 20 * (|(s : ℝ)| * g) := by
    have := (Rat.cast_le (K := ℝ)).mpr er
    push_cast at this
    exact this
  have sR : (0 : ℝ) < |(s : ℝ)| := by exact_mod_cast s0
  obtain ⟨y0, ly⟩ := level_close (mul_pos sR g0) (by norm_num) (by norm_num) erR
  rw [Real.logb_mul sR.ne' g0.ne'] at ly
  rw [Real.logb_mul mR.ne' I0.ne', Real.logb_rpow (by norm_num) (by norm_num)] at lg
  push_cast
  rw [hdB |(y : ℝ)|] at *
  rw [hdB (|(s : ℝ)| * m), Real.logb_mul sR.ne' mR.ne']
  have r1 : (1 : ℝ) ≤ 2 - r := by
    have : (r : ℝ) ≤ 1 := by exact_mod_cast h1
    linarith
  have r0 : (0 : ℝ) ≤ r := by exact_mod_cast h0
  generalize 20 * Real.logb 10 |(y : ℝ)| = L at *
  generalize Real.logb 10 |(s : ℝ)| = S at *
  generalize Real.logb 10 (g : ℝ) = G at *
  generalize Real.logb 10 (m : ℝ) = M at *
  generalize dB e.y = E at *
  have main : |(L - T) * (2 - r) - (20 * (S + M) - T)| ≤ (1 - r) * δ + 1 / 1000 := by
    have e1 : (L - T) * (2 - r) - (20 * (S + M) - T) =
        (L - 20 * (S + G)) + (20 * G - 20 * (M + (1 - r) * (T - E) / 20)) + (1 - r) * (L - E) := by ring
    rw [e1]
    have e2 : |(1 - r) * (L - E)| ≤ (1 - r) * δ := by
      rw [abs_mul, abs_of_nonneg (by linarith), abs_sub_comm]
      exact mul_le_mul_of_nonneg_left hδ (by linarith)
    have e3 := abs_add_le ((L - 20 * (S + G)) + (20 * G - 20 * (M + (1 - r) * (T - E) / 20))) ((1 - r) * (L - E))
    have e4 := abs_add_le (L - 20 * (S + G)) (20 * G - 20 * (M + (1 - r) * (T - E) / 20))
    norm_num at *
    linarith
  have e5 : L - (T + (20 * (S + M) - T) / (2 - r)) = ((L - T) * (2 - r) - (20 * (S + M) - T)) / (2 - r) := by
    have : (2 - (r : ℝ)) ≠ 0 := by linarith
    field_simp
    ring
  rw [e5, abs_div, abs_of_pos (by linarith : (0 : ℝ) < 2 - r), div_le_iff₀ (by linarith)]
  have d0 := (abs_nonneg _).trans hδ
  nlinarith

/-- Non-vacuity of `C103_feedback_law`: 4 : 1 above -18 dB, make-up gain 3, envelope and sample 1/2. -/
example : ∃ e' y, fbStep fl32 fl64 ((Compressor.mk' fl32 (-18) (1 / 4)).gain fl64) 3 ⟨1 / 2, 0, 0⟩ (1 / 2) = .ok (e', y) ∧
    1 / 2 ^ 30 ≤ |y| ∧ (-18 : ℝ) ≤ 20 * Real.logb 10 (1 / 2 : ℝ) ∧ 20 * Real.logb 10 (1 / 2 : ℝ) ≤ -18 + 119 := by
  have hh : IsFloat (1 / 2) := ⟨1, -1, by norm_num, by norm_num, by norm_num⟩
  have hg := (C47_never_boosts (-18) (1 / 4) (by norm_num) (by norm_num)).2.1
  obtain ⟨lev, amp, elev, eamp, ha0, ea, -⟩ := apply_ok hg (m := 3) (s := 1 / 2) ⟨3, 0, by norm_num, by norm_num, by norm_num⟩
    (by norm_num) hh (by norm_num)
  have ge := toAmp_ge _ _ eamp
  refine ⟨_, _, by unfold fbStep; rw [ea, bind_ok]; rfl, ?_, ?_, ?_⟩
  · have a1 : 1 / 2 ^ 20 ≤ fl32 (amp * 3) := fl32_lawful.ge_of_rep ⟨1, -20, by norm_num, by norm_num, by norm_num⟩ (by
      norm_num at ge ⊢; linarith)
    refine le_trans (fl32_lawful.ge_of_rep (r := 1 / 2 ^ 30) ⟨1, -30, by norm_num, by norm_num, by norm_num⟩ ?_) (le_abs_self _)
    norm_num at a1 ⊢
    linarith
  · have h3 : Real.logb 10 ((1 / 2 : ℝ) ^ 3) = 3 * Real.logb 10 (1 / 2 : ℝ) := by rw [Real.logb_pow]; norm_num
    have h4 : (-1 : ℝ) ≤ Real.logb 10 ((1 / 2 : ℝ) ^ 3) := by
      rw [Real.le_logb_iff_rpow_le (by norm_num) (by norm_num)]
      norm_num [Real.rpow_neg_one]
    linarith
  · have : Real.logb 10 (1 / 2 : ℝ) ≤ 0 := Real.logb_nonpos (by norm_num) (by norm_num) (by norm_num)
    linarith

end Verif
