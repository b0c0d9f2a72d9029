import Verif.Proof.RoundCompute
import Verif.Props.PeriodSearchFloat
import Verif.Props.DualPitchFloat
/-!
# Runs of the detectors in single precision

Concrete cases for C21, C25, C26, C76, C77 in binary32, evaluated by the kernel with the computable rounding (`f32c_eq`).
-/
namespace Verif
open FloatOps Rounding

theorem runC_last {σ ι ο : Type} {step : σ → ι → C (σ × ο)} (xs : List ι) (x : ι) : ∀ {s s2 : σ} {o : List ο},
    runC step s (xs ++ [x]) = .ok (s2, o) → ∃ s1 o1 b, runC step s xs = .ok (s1, o1) ∧ step s1 x = .ok (s2, b) ∧ o = o1 ++ [b] := by
  induction xs with
  | nil =>
    intro s s2 o h
    rw [List.nil_append, runC] at h
    match e : step s x, h with
    | .error _, h => cases h
    | .ok (s1, b), h =>
      simp only [runC, bind, Except.bind] at h
      injection h with h; injection h with h1 h2
      exact ⟨s, [], b, rfl, by rw [e, h1], h2.symm⟩
  | cons y ys ih =>
    intro s s2 o h
    rw [List.cons_append, runC] at h
    match e : step s y, h with
    | .error _, h => cases h
    | .ok (s1, b), h =>
      rw [PD.ok_bind] at h
      simp only [] at h
      match e2 : runC step s1 (ys ++ [x]), h with
      | .error _, h => cases h
      | .ok (s3, o3), h =>
        rw [PD.ok_bind] at h
        injection h with h; injection h with h1 h2
        obtain ⟨s4, o4, b4, k1, k2, k3⟩ := ih e2
        simp only at h1 h2
        subst h1
        refine ⟨s4, b :: o4, b4, ?_, k2, by rw [← h2, k3]; rfl⟩
        rw [runC, e, PD.ok_bind]
        simp only []
        rw [k1, PD.ok_bind]; rfl

/-- What is known of a run's end is known of the last step. -/
theorem run_last {σ ι ο β : Type} {mk : C σ} {step : σ → ι → C (σ × ο)} {xs : List ι} {x : ι} {g : σ × List ο → β} {v : β}
    (h : ((mk >>= fun p => runC step p (xs ++ [x])).toOption.map g) = some v) :
    ∃ p0 p p' o b, mk = .ok p0 ∧ runC step p0 xs = .ok (p, o) ∧ step p x = .ok (p', b) ∧ g (p', o ++ [b]) = v := by
  cases e0 : mk with
  | error _ => rw [e0] at h; cases h
  | ok p0 =>
    rw [e0, PD.ok_bind] at h
    cases e : runC step p0 (xs ++ [x]) with
    | error _ => rw [e] at h; cases h
    | ok r =>
      obtain ⟨p', ys⟩ := r
      rw [e] at h
      obtain ⟨p, o, b, k1, k2, k3⟩ := runC_last _ _ e
      subst k3
      injection h with h
      exact ⟨p0, p, p', o, b, rfl, k1, k2, h⟩

/-- `n` periods of a pulse train of period `N`, two samples high. -/
def train32 (N n : Nat) : List F32 := (List.replicate n ([⟨-1⟩, ⟨1⟩, ⟨1⟩] ++ List.replicate (N - 3) ⟨-1⟩)).flatten

/-- A period detector for 100–1600 Hz at 6400 samples per second, after `l`. -/
def pdRun32 (i : FloatOps F32) (l : List F32) : C (PD F32 × List Bool) := do
  let p ← @PD.mk' F32 i ⟨100⟩ ⟨1600⟩ 6400 ⟨1 / 128⟩
  @runC (PD F32) F32 Bool (@PD.step F32 i) p l

/-- A pitch detector. -/
def pitchRun32 (i : FloatOps F32) (l : List F32) : C (Pitch F32 × List Bool) := do
  let p ← @Pitch.mk' F32 i ⟨100⟩ ⟨1600⟩ 6400 ⟨1 / 128⟩
  @runC (Pitch F32) F32 Bool (@Pitch.step F32 i) p l

/-- A dual pitch detector. -/
def dualRun32 (i : FloatOps F32) (l : List F32) : C (Dual F32 × List Bool) := do
  let p ← @Dual.mk' F32 i ⟨100⟩ ⟨1600⟩ 6400 ⟨1 / 128⟩
  @runC (Dual F32) F32 Bool (@Dual.step F32 i) p l

theorem pdRun32_eq (l : List F32) : pdRun32 inferInstance l = pdRun32 f32c l := by rw [f32c_eq]
theorem pitchRun32_eq (l : List F32) : pitchRun32 inferInstance l = pitchRun32 f32c l := by rw [f32c_eq]
theorem dualRun32_eq (l : List F32) : dualRun32 inferInstance l = dualRun32 f32c l := by rw [f32c_eq]

/-- 127 samples of a train of period 40, and the next. -/
example : ((pdRun32 inferInstance ((train32 40 4).take 128)).toOption.map fun r =>
    (r.1.fundamental.period.val, r.1.fundamental.periodicity.val, r.1.minPeriod, r.1.range, r.2.getLast?)) = some (40, 1, 4, 16, some true) := by
  rw [pdRun32_eq]; decide +kernel

/-- The hypotheses of `C76_estimate_binary32` (and of `C21_periodicity_binary32`) are met. -/
example : ∃ (p p' : PD F32) (s : F32), PReach ⟨100⟩ ⟨1600⟩ 6400 ⟨1 / 128⟩ p ∧ p.step s = .ok (p', true) ∧ p'.fundamental.period.val = 40 := by
  have h : ((pdRun32 inferInstance ((train32 40 4).take 127 ++ [⟨-1⟩])).toOption.map fun r =>
      (r.1.fundamental.period.val, r.2.getLast?)) = some (40, some true) := by
    rw [pdRun32_eq]; decide +kernel
  obtain ⟨p0, p, p', o, b, e0, k1, k2, k3⟩ := run_last h
  rw [List.getLast?_concat] at k3
  injection k3 with h1 h3
  injection h3 with h3
  subst h3
  refine ⟨p, p', _, ⟨p0, _, _, e0, ?_, k1⟩, k2, h1⟩
  have hc : ((@PD.mk' F32 inferInstance ⟨100⟩ ⟨1600⟩ 6400 ⟨1 / 128⟩).toOption.map fun q => q.zc.window) = some 128 := by
    rw [f32c_eq]; decide +kernel
  rw [e0] at hc
  injection hc with hc
  simp only at hc
  omega

/-- The hypotheses of `C77_predict_range_binary32` are met, by a detector that predicts the period 40. -/
example : ((pdRun32 inferInstance ((train32 40 4).take 127)).toOption.map fun r =>
    (r.1.zc.window, r.1.predictPeriod.toOption.map fun q => q.2.val)) = some (128, some 40) := by
  have h : pdRun32 inferInstance ((train32 40 4).take 127) = pdRun32 f32c ((train32 40 4).take 127) := pdRun32_eq _
  rw [h, show (fun r : PD F32 × List Bool => (r.1.zc.window, r.1.predictPeriod.toOption.map fun q => q.2.val)) =
    fun r => (r.1.zc.window, (@PD.predictPeriod F32 f32c r.1).toOption.map fun q => q.2.val) from by rw [← f32c_eq]]
  decide +kernel

/-- A signal whose pitch jumps. -/
def jump32 : List F32 := train32 40 5 ++ train32 29 5

/-- A signal that stops. -/
def drop32 : List F32 := train32 40 4 ++ List.replicate 32 ⟨-1⟩

/-- The hypotheses of `C25_jump_binary32` are met: from 160 Hz to a rounded 220.69 Hz. -/
example : ∃ (d d' : Pitch F32) (s : F32) (r : Bool), d.step s = .ok (d', r) ∧ d'.current.frequency.val ≠ 0 ∧
    d.current.frequency.val / 32 ≤ |d.current.frequency.val - d'.current.frequency.val| ∧ d'.current.frequency.val ≠ d.current.frequency.val ∧
    d.current.frequency.val = 160 ∧ d'.current.frequency.val = 14463117 / 65536 := by
  have e0 : ((pitchRun32 inferInstance (jump32.take 319)).toOption.map fun r => r.1.current.frequency.val) = some 160 := by
    rw [pitchRun32_eq]; decide +kernel
  have h : ((pitchRun32 inferInstance (jump32.take 319 ++ [⟨-1⟩])).toOption.map fun r => r.1.current.frequency.val) = some (14463117 / 65536) := by
    rw [pitchRun32_eq]; decide +kernel
  obtain ⟨p0, d, d', o, b, k0, k1, k2, k3⟩ := run_last h
  rw [pitchRun32, k0, PD.ok_bind, k1] at e0
  injection e0 with e0
  simp only at e0 k3
  refine ⟨d, d', _, b, k2, ?_, ?_, ?_, e0, k3⟩
  · rw [k3]; norm_num
  · rw [e0, k3]; norm_num [abs_of_nonpos]
  · rw [e0, k3]; norm_num

/-- The hypotheses of `C25_drop_binary32` are met. -/
example : ∃ (d d' : Pitch F32) (s : F32) (r : Bool), PitchReach ⟨100⟩ ⟨1600⟩ 6400 ⟨1 / 128⟩ d ∧ d.step s = .ok (d', r) ∧
    d.current.frequency.val ≠ 0 ∧ d'.current.frequency.val = 0 := by
  have e0 : ((pitchRun32 inferInstance (drop32.take 191)).toOption.map fun r => r.1.current.frequency.val) = some 160 := by
    rw [pitchRun32_eq]; decide +kernel
  have h : ((pitchRun32 inferInstance (drop32.take 191 ++ [⟨-1⟩])).toOption.map fun r => r.1.current.frequency.val) = some 0 := by
    rw [pitchRun32_eq]; decide +kernel
  obtain ⟨p0, d, d', o, b, k0, k1, k2, k3⟩ := run_last h
  rw [pitchRun32, k0, PD.ok_bind, k1] at e0
  injection e0 with e0
  simp only at e0 k3
  refine ⟨d, d', _, b, ⟨p0, _, _, k0, ?_, k1⟩, k2, ?_, k3⟩
  · have hc : ((@Pitch.mk' F32 inferInstance ⟨100⟩ ⟨1600⟩ 6400 ⟨1 / 128⟩).toOption.map fun q => q.pd.zc.window) = some 128 := by
      rw [f32c_eq]; decide +kernel
    rw [k0] at hc
    injection hc with hc
    simp only at hc
    omega
  · rw [e0]; norm_num

/-- A square wave of the given half period. -/
def square32 (half n : Nat) : List F32 := (List.replicate n (List.replicate half ⟨-1⟩ ++ List.replicate half ⟨1⟩)).flatten

theorem lock32_a : ((dualRun32 inferInstance ((square32 16 6 ++ square32 5 30).take 400)).toOption.map fun r =>
    (r.1.first, decide (r.1.mean.val ≤ 320))) = some (false, true) := by
  rw [dualRun32_eq]; decide +kernel

theorem lock32_b : ((dualRun32 inferInstance ((square32 16 6 ++ square32 5 30).take 400 ++ [⟨-1⟩])).toOption.map fun r =>
    (r.1.pd1.current.frequency.val, r.1.pd2.current.frequency.val, decide (r.1.current.frequency.val ≠ 640))) = some (640, 640, true) := by
  rw [dualRun32_eq]; decide +kernel

/-- The hypotheses of `C26_lockout_binary32` are met: after 200 Hz, a 640 Hz square wave, which both detectors report as 640 Hz, is not taken over. -/
example : ∃ (d d' : Dual F32) (s : F32) (r : Bool), d.first = false ∧ d.step s = .ok (d', r) ∧
    d'.pd1.current.frequency.val = 640 ∧ d'.pd2.current.frequency.val = 640 ∧ fl32 (d.mean.val * 2) ≤ 640 ∧ d'.current.frequency.val ≠ 640 := by
  have e0 := lock32_a
  have h := lock32_b
  obtain ⟨p0, d, d', o, b, k0, k1, k2, k3⟩ := run_last h
  rw [dualRun32, k0, PD.ok_bind, k1] at e0
  injection e0 with e0
  injection e0 with e1 e2
  injection k3 with k3 k4
  injection k4 with k4 k5
  simp only at e1 e2 k3 k4 k5
  refine ⟨d, d', _, b, e1, k2, k3, k4, ?_, of_decide_eq_true k5⟩
  have h640 : fl32 ((640 : Int) : ℚ) = (640 : Int) := g32_int 640 (by norm_num)
  push_cast at h640
  rw [← h640]
  apply fl32_lawful.mono
  have := of_decide_eq_true e2
  linarith

end Verif
