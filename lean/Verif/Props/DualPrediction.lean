import Verif.Props.DualPitch
import Verif.Props.PeriodSearch
/-!
# Property C26: what `dual_pitch_detector::predict_frequency()` answers (exact arithmetic)
-/
namespace Verif
open FloatOps

attribute [local irreducible] i32 u64

/-- The frequency belonging to a predicted period; 0 stands for unknown, as does the period -1. -/
def predFreq (sps : Nat) (t : ℚ) : ℚ := if t = -1 then 0 else sps / t

open Classical in
/-- The documented prediction: the one of the first detector, provided both detectors predict, the two differ by
less than a tenth of the first, and (except before the first estimate) it lies within an octave of the mean;
0 (unknown) otherwise. -/
noncomputable def dualPrediction (first : Bool) (mean f1 f2 : ℚ) : ℚ :=
  if 0 < f1 ∧ 0 < f2 ∧ |f1 - f2| < f1 / 10 ∧ (first = true ∨ Octave mean f1) then f1 else 0

theorem predictFrequency_eq {x : Pitch ℚ} {q : PD ℚ} {t : ℚ} (h : x.pd.predictPeriod = .ok (q, t)) :
    x.predictFrequency = .ok ({ x with pd := q }, predFreq x.sps t) := by
  rw [Pitch.predictFrequency, h, PD.ok_bind]
  show Except.ok (_, _) = Except.ok (_, _)
  congr 2
  rw [predFreq]
  by_cases ht : t = -1
  · rw [if_pos ht, if_pos (by rw [rat_eq]; exact ht)]; rfl
  · rw [if_neg ht, if_neg (by rw [rat_eq]; exact ht)]
    show ((x.sps : Int) : ℚ) / t = _
    push_cast; rfl

theorem computePredicted_value {d d' : Dual ℚ} (hm : 0 < d.mean) {q1 q2 : PD ℚ} {t1 t2 : ℚ}
    (h1 : d.pd1.pd.predictPeriod = .ok (q1, t1)) (h2 : d.pd2.pd.predictPeriod = .ok (q2, t2))
    (h : d.computePredicted = .ok d') :
    d'.predicted = dualPrediction d.first d.mean (predFreq d.pd1.sps t1) (predFreq d.pd2.sps t2) := by
  rw [Dual.computePredicted, predictFrequency_eq h1, PD.ok_bind] at h
  simp only [] at h
  generalize predFreq d.pd1.sps t1 = f1 at h ⊢
  rw [dualPrediction]
  by_cases hf1 : 0 < f1
  · rw [if_pos (by rw [rat_lt]; exact hf1), predictFrequency_eq h2, PD.ok_bind] at h
    simp only [] at h
    generalize predFreq d.pd2.sps t2 = f2 at h ⊢
    have hiff : (lt (lit 0) f2 && lt (FloatOps.abs (sub f1 f2)) (div f1 (lit 10)) &&
        (d.first || ({ d with pd1 := { d.pd1 with pd := q1 }, pd2 := { d.pd2 with pd := q2 } } : Dual ℚ).withinOctave f1)) = true ↔
        0 < f1 ∧ 0 < f2 ∧ |f1 - f2| < f1 / 10 ∧ (d.first = true ∨ Octave d.mean f1) := by
      rw [Bool.and_eq_true, Bool.and_eq_true, Bool.or_eq_true, withinOctave_iff _ (show 0 < Dual.mean ({ d with pd1 := { d.pd1 with pd := q1 }, pd2 := { d.pd2 with pd := q2 } } : Dual ℚ) from hm), rat_lt, rat_lt, rat_abs]
      constructor
      · rintro ⟨⟨a, b⟩, c⟩; exact ⟨hf1, a, b, c⟩
      · rintro ⟨-, a, b, c⟩; exact ⟨⟨a, b⟩, c⟩
    by_cases hc : 0 < f1 ∧ 0 < f2 ∧ |f1 - f2| < f1 / 10 ∧ (d.first = true ∨ Octave d.mean f1)
    · rw [if_pos (hiff.2 hc)] at h
      rw [if_pos hc]; injection h with h; rw [← h]
    · rw [if_neg (fun hh => hc (hiff.1 hh))] at h
      rw [if_neg hc]; injection h with h; rw [← h]; rfl
  · rw [if_neg (by rw [rat_lt]; exact hf1)] at h
    rw [if_neg (fun hh => hf1 hh.1)]; injection h with h; rw [← h]; rfl

/-- A reachable dual detector can always be asked: both detectors have an answer, and so has the dual one; a known
prediction is returned unchanged, otherwise it is the documented one. -/
theorem C26_prediction (lowest highest : ℚ) (sps : Nat) (hyst : ℚ) (hl : 0 < lowest) (hh : 0 < highest) (d : Dual ℚ)
    (hd : DualReach lowest highest sps hyst d) :
    ∃ q1 q2 t1 t2 d' x, d.pd1.pd.predictPeriod = .ok (q1, t1) ∧ d.pd2.pd.predictPeriod = .ok (q2, t2) ∧
      d.predictFrequency = .ok (d', x) ∧ d'.current = d.current ∧ d'.mean = d.mean ∧ d'.first = d.first ∧ d'.predicted = x ∧
      x = if d.predicted = 0 then dualPrediction d.first d.mean (predFreq d.pd1.sps t1) (predFreq d.pd2.sps t2) else d.predicted := by
  obtain ⟨W, i⟩ := dualReach_inv hd hl hh
  obtain ⟨q1, t1, e1⟩ := predictPeriod_total i.i1
  obtain ⟨q2, t2, e2⟩ := predictPeriod_total i.i2
  by_cases hz : d.predicted = 0
  · have hex : ∃ d', d.computePredicted = .ok d' := by
      rw [Dual.computePredicted, predictFrequency_eq e1, PD.ok_bind]
      simp only []
      split
      · rw [predictFrequency_eq e2, PD.ok_bind]
        simp only []
        split <;> exact ⟨_, rfl⟩
      · exact ⟨_, rfl⟩
    obtain ⟨d', ed⟩ := hex
    obtain ⟨c1, c2, c3, -, -⟩ := computePredicted_spec _ _ ed
    refine ⟨q1, q2, t1, t2, d', d'.predicted, e1, e2, ?_, c1, c2, c3, rfl, ?_⟩
    · rw [Dual.predictFrequency, if_pos (by rw [rat_eq]; exact hz), ed]; rfl
    · rw [if_pos hz]; exact computePredicted_value i.mean e1 e2 ed
  · refine ⟨q1, q2, t1, t2, d, d.predicted, e1, e2, ?_, rfl, rfl, rfl, rfl, ?_⟩
    · rw [Dual.predictFrequency, if_neg (by rw [rat_eq]; exact hz)]
    · rw [if_neg hz]

/-- **C26** When a completed window leaves neither detector with a pitch, the prediction is recomputed by the same
rule, from the detectors as they are after this sample. -/
theorem C26_prediction_on_loss (lowest highest : ℚ) (sps : Nat) (hyst : ℚ) (hl : 0 < lowest) (hh : 0 < highest) (d : Dual ℚ)
    (hd : DualReach lowest highest sps hyst d) (s : ℚ) (d' : Dual ℚ) (h : d.step s = .ok (d', true))
    (z1 : d'.pd1.current.frequency = 0) (z2 : d'.pd2.current.frequency = 0) :
    ∃ p1 p2 b1 b2 q1 q2 t1 t2, d.pd1.step s = .ok (p1, b1) ∧ d.pd2.step (-s) = .ok (p2, b2) ∧
      p1.pd.predictPeriod = .ok (q1, t1) ∧ p2.pd.predictPeriod = .ok (q2, t2) ∧
      d'.predicted = dualPrediction d.first d.mean (predFreq p1.sps t1) (predFreq p2.sps t2) := by
  obtain ⟨W, i⟩ := dualReach_inv hd hl hh
  obtain ⟨p1, p2, b1, b2, e1, e2, hb, c1, c2, -⟩ := dual_rules d i.mean s d' true h
  have k1 : PD.PInv W p1.pd := by
    rcases pitch_step i.i1 s with ⟨q, eq, hq, -⟩ | eq
    · rw [e1] at eq; injection eq with eq; subst eq; exact hq
    · rw [e1] at eq; cases eq
  have k2 : PD.PInv W p2.pd := by
    rcases pitch_step i.i2 (-s) with ⟨q, eq, hq, -⟩ | eq
    · rw [e2] at eq; injection eq with eq; subst eq; exact hq
    · rw [e2] at eq; cases eq
  obtain ⟨q1, t1, f1⟩ := predictPeriod_total k1
  obtain ⟨q2, t2, f2⟩ := predictPeriod_total k2
  refine ⟨p1, p2, b1, b2, q1, q2, t1, t2, e1, e2, f1, f2, ?_⟩
  rw [c1] at z1
  rw [c2] at z2
  have n1 := (indet_iff p1).2 z1
  have n2 := (indet_iff p2).2 z2
  have e2' : d.pd2.step (FloatOps.neg s) = .ok (p2, b2) := e2
  rw [Dual.step, e1, PD.ok_bind] at h
  simp only [] at h
  rw [e2', PD.ok_bind] at h
  simp only [n1, n2, ← hb] at h
  simp only [Bool.not_true, Bool.and_self, Bool.false_eq_true, if_false, if_true] at h
  rw [if_pos (by rw [n1, n2]; rfl)] at h
  match e3 : Dual.computePredicted { d with pd1 := p1, pd2 := p2 }, h with
  | .error _, h => cases h
  | .ok d2, h =>
    rw [PD.ok_bind] at h
    injection h with h
    injection h with h _
    have := computePredicted_value (d := { d with pd1 := p1, pd2 := p2 }) i.mean f1 f2 e3
    rw [← h]; exact this

/-! ## Concrete cases meeting the hypotheses -/

/-- Two periods of a 200 Hz square wave, before the first window is complete: no pitch yet, but 200 Hz is predicted. -/
example : ((dualRun (squareWave 16 2)).toOption.bind
    fun r => r.1.predictFrequency.toOption.map fun q => (r.1.current.frequency, q.2)) = some (0, 200) := by decide +kernel

/-- The agreement rule on numbers: 200 Hz and 210 Hz agree, 200 Hz and 220 Hz do not; 500 Hz is too far from a mean of 200 Hz. -/
example : dualPrediction false 200 200 210 = 200 ∧ dualPrediction false 200 200 220 = 0 ∧ dualPrediction false 200 500 500 = 0 := by
  refine ⟨?_, ?_, ?_⟩
  · rw [dualPrediction, if_pos]; norm_num [Octave, abs_lt]
  · rw [dualPrediction, if_neg]; norm_num [Octave, abs_lt]
  · rw [dualPrediction, if_neg]; norm_num [Octave]
end Verif
