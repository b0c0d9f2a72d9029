import Verif.Model.SinSynth
import Verif.Props.Sin
import Verif.Props.Phase
import Verif.Model.Float32
import Mathlib.Analysis.SpecialFunctions.Trigonometric.Bounds
/-!
# C101: the tone generator of example/sin_synth.cpp
-/
namespace Verif
open Phase Rounding Example

theorem toneFrame_eq (L : Lawful 24 (-149) fl) (D : Lawful 53 (-1074) fd) (i : Iter) :
    ∃ v, Sin.sin_gen fl fd i.phase = .ok v ∧ toneFrame fl fd i = .ok (i.inc, (v, v)) := by
  obtain ⟨v, h, _⟩ := C35_sine L D i.phase
  exact ⟨v, h, by unfold toneFrame Iter.postInc; simp only; rw [h]; rfl⟩

theorem toneProcess_eq (L : Lawful 24 (-149) fl) (D : Lawful 53 (-1074) fd) (n : Nat) (i : Iter) :
    ∃ o, toneProcess fl fd i n = .ok (Iter.inc^[n] i, o) ∧ o.length = n ∧
      ∀ k v w, o[k]? = some (v, w) → v = w ∧ Sin.sin_gen fl fd (Iter.inc^[k] i).phase = .ok v := by
  induction n generalizing i with
  | zero => exact ⟨[], rfl, rfl, fun k v w h => by simp at h⟩
  | succ n ih =>
    obtain ⟨v, h1, h2⟩ := toneFrame_eq L D i
    obtain ⟨o, g1, g2, g3⟩ := ih i.inc
    refine ⟨(v, v) :: o, ?_, by simp [g2], ?_⟩
    · rw [toneProcess, h2]
      show (toneProcess fl fd i.inc n >>= _) = _
      rw [g1]; rfl
    · intro k a b h
      cases k with
      | zero => simp at h; obtain ⟨rfl, rfl⟩ := h; exact ⟨rfl, h1⟩
      | succ k =>
        rw [Function.iterate_succ_apply]
        exact g3 k a b (by simpa using h)

theorem toneCalls_eq (L : Lawful 24 (-149) fl) (D : Lawful 53 (-1074) fd) (ns : List Nat) (i : Iter) :
    ∃ o, toneCalls fl fd i ns = .ok (Iter.inc^[ns.sum] i, o) ∧ o.length = ns.sum ∧
      ∀ k v w, o[k]? = some (v, w) → v = w ∧ Sin.sin_gen fl fd (Iter.inc^[k] i).phase = .ok v := by
  induction ns generalizing i with
  | nil => exact ⟨[], rfl, rfl, fun k v w h => by simp at h⟩
  | cons n ns ih =>
    obtain ⟨o1, h1, h2, h3⟩ := toneProcess_eq L D n i
    obtain ⟨o, g1, g2, g3⟩ := ih (Iter.inc^[n] i)
    refine ⟨o1 ++ o, ?_, by simp [g2, h2], ?_⟩
    · rw [toneCalls, h1]
      show (toneCalls fl fd (Iter.inc^[n] i) ns >>= _) = _
      rw [g1, List.sum_cons, add_comm n, Function.iterate_add_apply]; rfl
    · intro k a b h
      rcases lt_or_ge k n with hk | hk
      · rw [List.getElem?_append_left (by omega)] at h
        exact h3 k a b h
      · rw [List.getElem?_append_right (by omega), h2] at h
        have := g3 _ a b h
        rw [← Function.iterate_add_apply, Nat.sub_add_cancel hk] at this
        exact this

theorem sin_turns (a : ℕ) : Real.sin (2 * Real.pi * (((a % 2 ^ 32 : ℕ) : ℝ) / 2 ^ 32)) = Real.sin (2 * Real.pi * ((a : ℝ) / 2 ^ 32)) := by
  have h := Nat.div_add_mod a (2 ^ 32)
  have h2 : (a : ℝ) = 2 ^ 32 * ((a / 2 ^ 32 : ℕ) : ℝ) + ((a % 2 ^ 32 : ℕ) : ℝ) := by exact_mod_cast h.symm
  generalize a / 2 ^ 32 = q at *
  generalize a % 2 ^ 32 = r at *
  rw [h2]
  have e : 2 * Real.pi * ((2 ^ 32 * (q : ℝ) + r) / 2 ^ 32) = 2 * Real.pi * ((r : ℝ) / 2 ^ 32) + q * (2 * Real.pi) := by ring
  rw [e, Real.sin_add_nat_mul_two_pi]

theorem sin_lip (a b : ℝ) : |Real.sin a - Real.sin b| ≤ |a - b| := by
  have := Real.lipschitzWith_sin.dist_le_mul a b
  simpa [Real.dist_eq] using this

/-- **C101** (IEEE rounding included) The tone generator plays the frequency asked for: for every frequency below the sampling rate there is a frequency `f'` within
`sps / 2^32` (1 + 2^-21) Hz of it such that, however the host cuts the output into buffers, every call succeeds, both channels get the same sample, in `[-1, 1]`,
and the `n`-th sample is the sine of `f'` at time `n / sps` to within `5e-6`: the error does not grow with time.  Measured against the frequency asked for, the
phase drifts by at most `(1 + 2^-21) / 2^32` turns per sample. -/
theorem C101_tone (f : ℚ) (sps : ℕ) (h0 : 0 ≤ f) (h1 : f < sps) (hs : sps < 2 ^ 32) (hf : Rep 53 (-1074) f) :
    ∃ f' : ℝ, |f' - f| ≤ (sps : ℝ) / 2 ^ 32 * (1 + 1 / 2 ^ 21) ∧
      ∀ buffers : List ℕ, ∃ o, toneRun fl32 fl64 f sps buffers = .ok o ∧ o.length = buffers.sum ∧
        ∀ (n : ℕ) (v w : ℚ), o[n]? = some (v, w) → v = w ∧ |v| ≤ 1 ∧
          |(v : ℝ) - Real.sin (2 * Real.pi * f' * (n / sps))| ≤ 5 / 10 ^ 6 ∧
          |(v : ℝ) - Real.sin (2 * Real.pi * f * (n / sps))| ≤ 5 / 10 ^ 6 + 2 * Real.pi * n * ((1 + 1 / 2 ^ 21) / 2 ^ 32) := by
  obtain ⟨d, d1, d2⟩ := C30_frequency f sps h0 h1 hs hf
  have hsp : (0 : ℝ) < sps := by
    have : (0 : ℚ) < sps := lt_of_le_of_lt h0 h1
    exact_mod_cast this
  have key : ∀ n : ℕ, |(n : ℝ) * (d.toNat : ℝ) - 2 ^ 32 * ((n : ℝ) * (f : ℝ) / sps)| ≤ (n : ℝ) * (1 + 1 / 2 ^ 21) := by
    intro n
    have : ((|(n * d.toNat : ℚ) - 2 ^ 32 * (n * f / sps)| : ℚ) : ℝ) ≤ (((n : ℚ) * (1 + 1 / 2 ^ 21) : ℚ) : ℝ) := Rat.cast_le.2 (d2 n)
    push_cast at this
    exact this
  refine ⟨(d.toNat : ℝ) / 2 ^ 32 * sps, ?_, ?_⟩
  · have k := key 1
    rw [Nat.cast_one, one_mul, one_mul, one_mul] at k
    have e : (d.toNat : ℝ) / 2 ^ 32 * sps - f = sps / 2 ^ 32 * ((d.toNat : ℝ) - 2 ^ 32 * ((f : ℝ) / sps)) := by
      field_simp
    rw [e, abs_mul, abs_of_pos (by positivity)]
    exact mul_le_mul_of_nonneg_left k (by positivity)
  · intro buffers
    obtain ⟨o, g1, g2, g3⟩ := toneCalls_eq fl32_lawful fl64_lawful buffers ⟨0#32, d⟩
    refine ⟨o, ?_, g2, ?_⟩
    · unfold toneRun Iter.ofFreq
      rw [d1]
      show (toneCalls fl32 fl64 ⟨0#32, d⟩ buffers >>= _) = _
      rw [g1]; rfl
    · intro n v w h
      obtain ⟨e1, e2⟩ := g3 n v w h
      obtain ⟨v', s1, s2, s3⟩ := C35_sine fl32_lawful fl64_lawful (Iter.inc^[n] (⟨0#32, d⟩ : Iter)).phase
      have ev : v' = v := by rw [e2] at s1; injection s1 with s1; exact s1.symm
      subst ev
      rw [(iterate_inc_toNat _ n).1] at s3
      simp only [BitVec.toNat_ofNat, Nat.zero_mod, zero_add] at s3
      rw [sin_turns] at s3
      have a1 : 2 * Real.pi * (((n * d.toNat : ℕ) : ℝ) / 2 ^ 32) = 2 * Real.pi * ((d.toNat : ℝ) / 2 ^ 32 * sps) * (n / sps) := by
        push_cast; field_simp
      refine ⟨e1, s2, by rw [← a1]; exact s3, ?_⟩
      have l := sin_lip (2 * Real.pi * (((n * d.toNat : ℕ) : ℝ) / 2 ^ 32)) (2 * Real.pi * f * (n / sps))
      have a2 : 2 * Real.pi * (((n * d.toNat : ℕ) : ℝ) / 2 ^ 32) - 2 * Real.pi * f * (n / sps)
          = 2 * Real.pi / 2 ^ 32 * ((n : ℝ) * (d.toNat : ℝ) - 2 ^ 32 * ((n : ℝ) * (f : ℝ) / sps)) := by
        push_cast; field_simp
      have a3 : |2 * Real.pi * (((n * d.toNat : ℕ) : ℝ) / 2 ^ 32) - 2 * Real.pi * f * (n / sps)| ≤ 2 * Real.pi * n * ((1 + 1 / 2 ^ 21) / 2 ^ 32) := by
        rw [a2, abs_mul, abs_of_pos (by positivity)]
        calc 2 * Real.pi / 2 ^ 32 * |(n : ℝ) * (d.toNat : ℝ) - 2 ^ 32 * ((n : ℝ) * (f : ℝ) / sps)|
            ≤ 2 * Real.pi / 2 ^ 32 * ((n : ℝ) * (1 + 1 / 2 ^ 21)) := mul_le_mul_of_nonneg_left (key n) (by positivity)
          _ = _ := by ring
      calc _ ≤ _ := abs_sub_le _ (Real.sin (2 * Real.pi * (((n * d.toNat : ℕ) : ℝ) / 2 ^ 32))) _
        _ ≤ _ := add_le_add s3 (l.trans a3)

/-- **C101** The samples do not depend on the buffer sizes the host chooses. -/
theorem C101_buffering (f : ℚ) (sps : ℕ) (h0 : 0 ≤ f) (h1 : f < sps) (hs : sps < 2 ^ 32) (hf : Rep 53 (-1074) f)
    (b1 b2 : List ℕ) (hb : b1.sum = b2.sum) : toneRun fl32 fl64 f sps b1 = toneRun fl32 fl64 f sps b2 := by
  obtain ⟨d, d1, _⟩ := C30_frequency f sps h0 h1 hs hf
  obtain ⟨o1, g1, g2, g3⟩ := toneCalls_eq fl32_lawful fl64_lawful b1 ⟨0#32, d⟩
  obtain ⟨o2, k1, k2, k3⟩ := toneCalls_eq fl32_lawful fl64_lawful b2 ⟨0#32, d⟩
  have e : o1 = o2 := by
    apply List.ext_getElem (by omega)
    intro n hn1 hn2
    have a := g3 n (o1[n]).1 (o1[n]).2 (List.getElem?_eq_getElem hn1)
    have b := k3 n (o2[n]).1 (o2[n]).2 (List.getElem?_eq_getElem hn2)
    have c : (o1[n]).1 = (o2[n]).1 := by
      have := a.2.symm.trans b.2
      injection this
    exact Prod.ext c (by rw [← a.1, ← b.1, c])
  have r : ∀ (b : List ℕ) (j : Iter) (o : List (ℚ × ℚ)), toneCalls fl32 fl64 ⟨0#32, d⟩ b = .ok (j, o) → toneRun fl32 fl64 f sps b = .ok o := by
    intro b j o h
    unfold toneRun Iter.ofFreq
    rw [d1]
    show (toneCalls fl32 fl64 ⟨0#32, d⟩ b >>= _) = _
    rw [h]; rfl
  rw [r b1 _ _ g1, r b2 _ _ k1, e]

/-- **C101** Frequencies at or above the sampling rate are not supported: the conversion to the phase increment is undefined. -/
theorem C101_range_violation (sps : ℕ) (hs : 0 < sps) (f : ℚ) (h : (sps : ℚ) ≤ f) (buffers : List ℕ) :
    toneRun fl32 fl64 f sps buffers = .error .badFloatCast := by
  unfold toneRun Iter.ofFreq
  rw [C30_violation_frequency sps hs f h]
  rfl

/-- The hypotheses are met: 440 Hz at 44.1 kHz (the program as written). -/
example : (0 : ℚ) ≤ 440 ∧ (440 : ℚ) < (44100 : ℕ) ∧ 44100 < 2 ^ 32 ∧ Rep 53 (-1074) 440 :=
  ⟨by norm_num, by norm_num, by norm_num, 440, 0, by norm_num, by norm_num, by norm_num⟩

end Verif
