import Verif.Props.TonePitch
import Verif.Props.ToneFloat
/-!
# Property C98 in single precision
-/
namespace Verif
open FloatOps Rounding

/-- The frequency `pitch_detector` computes from a period of `N` samples: one division of two numbers, rounded. -/
def freq32 (sps N : Nat) : ℚ := fl32 (fl32 sps / N)

theorem fl32_one : fl32 1 = 1 := by have := lit32_int 1 (by norm_num); exact_mod_cast this

theorem fl32_m1 : fl32 (-1) = -1 := by rw [fl32_lawful.neg, fl32_one]

theorem freq32_pos {sps N : Nat} (hs : 0 < sps) (hN : 0 < N) (hN' : N ≤ 2 ^ 24) : 2 ^ (-24 : ℤ) ≤ freq32 sps N := by
  have h1 : (1 : ℚ) ≤ fl32 sps := by
    have := fl32_lawful.mono 1 sps (by exact_mod_cast hs)
    rwa [fl32_one] at this
  have h2 : (0 : ℚ) < N := by exact_mod_cast hN
  have h3 : (N : ℚ) ≤ 2 ^ 24 := by exact_mod_cast hN'
  have h4 : (2 : ℚ) ^ (-24 : ℤ) ≤ fl32 sps / N := by
    rw [le_div_iff₀ h2]
    refine le_trans ?_ h1
    rw [zpow_neg, inv_mul_le_iff₀ (by positivity)]
    norm_num at h3 ⊢; exact h3
  have := fl32_lawful.mono _ _ h4
  have e := rep32 1 (-24) (by norm_num) (by norm_num)
  rw [Int.cast_one, one_mul] at e
  rwa [e] at this

theorem pitchPass32 {sps N : Nat} (hs : 0 < sps) (hN : 0 < N) (hN' : N ≤ 2 ^ 24) :
    PitchPass sps (⟨⟨N⟩, ⟨1⟩⟩ : PInfo F32) ⟨freq32 sps N⟩ := by
  have h1 : (0 : ℚ) < N := by exact_mod_cast hN
  have hf := freq32_pos hs hN hN'
  have hp : (0 : ℚ) < 2 ^ (-24 : ℤ) := by positivity
  have z := fl32_lawful.zero
  have e95 : fl32 (95 / 100) ≤ 1 := by
    have := fl32_lawful.mono (95 / 100) 1 (by norm_num); rwa [fl32_one] at this
  have e90 : fl32 (90 / 100) < 1 := by
    have := fl32_lawful.mono (90 / 100) (15 / 16) (by norm_num)
    have e := rep32 15 (-4) (by norm_num) (by norm_num)
    norm_num at e this
    rw [e] at this
    norm_num
    linarith
  refine ⟨?_, ?_, ?_, ?_, ?_, ?_, ?_, ?_⟩
  · show _ = (⟨fl32 (fl32 ((sps : Int) : ℚ) / N)⟩ : F32)
    rw [freq32, Int.cast_natCast]
  · show decide ((N : ℚ) = fl32 (-1)) = false
    rw [decide_eq_false_iff_not, fl32_m1]; linarith
  · show decide ((1 : ℚ) = fl32 (-1)) = false
    rw [decide_eq_false_iff_not, fl32_m1]; norm_num
  · show decide (fl32 0 < freq32 sps N) = true
    rw [decide_eq_true_eq, z]; linarith
  · show decide (fl32 (95 / 100) ≤ 1) = true
    rw [decide_eq_true_eq]; exact e95
  · show decide (fl32 (90 / 100) < 1) = true
    rw [decide_eq_true_eq]; exact e90
  · show decide (1 < fl32 (90 / 100)) = false
    rw [decide_eq_false_iff_not]; linarith
  · rw [f32_lt]
    have e32 : fl32 32 = 32 := by have := lit32_int 32 (by norm_num); exact_mod_cast this
    have hr : (div (⟨freq32 sps N⟩ : F32) (lit 32)).val = fl32 (freq32 sps N / 32) := by
      show fl32 (freq32 sps N / fl32 32) = _
      rw [e32]
    have hl : (FloatOps.abs (sub (⟨freq32 sps N⟩ : F32) ⟨freq32 sps N⟩)).val = 0 := by
      have hz : (sub (⟨freq32 sps N⟩ : F32) ⟨freq32 sps N⟩) = ⟨0⟩ := by
        show (⟨fl32 (freq32 sps N - freq32 sps N)⟩ : F32) = _
        rw [sub_self, z]
      rw [hz, FloatOps.abs]
      split
      · show -(0 : ℚ) = 0; norm_num
      · rfl
    rw [hr, hl]
    have h5 : (2 : ℚ) ^ (-29 : ℤ) ≤ freq32 sps N / 32 := by
      rw [le_div_iff₀ (by norm_num)]
      refine le_trans (le_of_eq ?_) hf
      norm_num
    have h6 := fl32_lawful.mono _ _ h5
    have e := rep32 1 (-29) (by norm_num) (by norm_num)
    rw [Int.cast_one, one_mul] at e
    rw [e] at h6
    have : (0 : ℚ) < 2 ^ (-29 : ℤ) := by positivity
    linarith

/-- **C98, in single precision.** As `C98_pulse_train`, with every operation of the detector rounded to binary32.  Every call succeeds;
after any number of calls the reported pitch is 0 if no analysis has been made, and otherwise the correctly rounded quotient of the
sampling rate and the period, within a relative `2^-24` of the true frequency (rates up to `2^24`), with periodicity exactly 1. -/
theorem C98_pulse_train_binary32 (lowest highest : F32) (sps : Nat) (hyst : ℚ) (hs : 0 < sps) (d0 : Pitch F32)
    (h0 : Pitch.mk' lowest highest sps ⟨hyst⟩ = .ok d0) (hw : d0.pd.zc.window ≤ 2 ^ 25) (x : Nat → ℚ) (N r w : Nat)
    (hx : PulseTrain32 x hyst N r w) (h1 : 2 * N ≤ d0.pd.zc.window) (h2 : d0.pd.minPeriod ≤ N)
    (hex : d0.pd.zc.window ≠ 320 ∨ N ≤ 128) (T : Nat) :
    ∃ d ys, runC Pitch.step d0 ((List.range T).map fun t => (⟨x t⟩ : F32)) = .ok (d, ys) ∧ ys.length = T ∧
      d.current.frequency.val = (if true ∈ ys then fl32 (fl32 sps / N) else 0) ∧
      d.current.periodicity.val = (if true ∈ ys then 1 else 0) ∧
      (sps ≤ 2 ^ 24 → true ∈ ys → |d.current.frequency.val - sps / N| ≤ sps / N / 2 ^ 24) ∧
      (d0.pd.zc.window + w < T → true ∈ ys) := by
  have ht := hx.tone
  have hNpos : 0 < N := by have := hx.fits; omega
  have hN24 : N ≤ 2 ^ 24 := by omega
  obtain ⟨h0', hcur, hsps⟩ := pitch_mk h0
  have hrepr : ∀ i, Rep 24 (-149) (y32 x hyst i).val := fun i => fl32_lawful.rep _
  obtain ⟨a0, a1⟩ := tone_accept32 hrepr ht
  obtain ⟨i0, f0⟩ := fresh_inv (N := N) h0' (by omega) ht h2 a0
  have hoff : ∀ t, add (⟨x t⟩ : F32) (div (neg ⟨hyst⟩) (lit 2)) = y32 x hyst t := fun t => rfl
  have hhalf := half_fits (N := N) i0.pinv.bits.ok.even i0.pinv.bits.ok.ge h1 hex
  have hrep : ∀ B, reported d0.pd.zc.window (y32 x hyst) N r w B = ⟨⟨N⟩, ⟨1⟩⟩ := fun B => by
    rw [reported32 hN24, if_neg (half_differs hx.gap hx.pulse hx.fits B _ hhalf)]
  have hfas : d0.framesAfterShift = 0 := by
    rw [Pitch.mk'] at h0
    match e : PD.mk' lowest highest sps ⟨hyst⟩, h0 with
    | .error _, h => cases h
    | .ok pd, h => injection h with h; rw [← h]
  obtain ⟨d, ys, b, e, l, ep, i, -, -, g⟩ := pitch_tone_run (pitchPass32 hs hNpos hN24) ht h1 a0 a1 hrep (fun t => (⟨x t⟩ : F32)) hoff 0 0 i0 hsps (Or.inl hfas) T
  simp only [Nat.zero_add] at e ep
  have hz : (PitchInfo.zero : PitchInfo F32) = ⟨⟨0⟩, ⟨0⟩⟩ := by
    show (⟨⟨fl32 0⟩, ⟨fl32 0⟩⟩ : PitchInfo F32) = _
    rw [fl32_lawful.zero]
  have hc : d.current = if true ∈ ys then ⟨⟨freq32 sps N⟩, ⟨1⟩⟩ else ⟨⟨0⟩, ⟨0⟩⟩ := by
    rw [g]
    split
    · rfl
    · rw [hcur]; exact hz
  refine ⟨d, ys, e, l, ?_, ?_, ?_, ?_⟩
  · rw [hc]; split <;> rfl
  · rw [hc]; split <;> rfl
  · intro hs24 hm
    rw [hc, if_pos hm]
    show |freq32 sps N - sps / N| ≤ _
    have es : fl32 (sps : ℚ) = sps := by
      have := lit32_int sps (by rw [abs_of_nonneg (by omega)]; exact_mod_cast hs24)
      exact_mod_cast this
    have hp := freq32_pos (N := N) hs hNpos hN24
    rw [freq32, es] at *
    have h1 : (0 : ℚ) < N := by exact_mod_cast hNpos
    have h2 : (1 : ℚ) ≤ sps := by exact_mod_cast hs
    have h3 : (N : ℚ) ≤ 2 ^ 24 := by exact_mod_cast hN24
    have h4 : (0 : ℚ) < sps / N := div_pos (by linarith) h1
    have h5 : (1 : ℚ) / 2 ^ 24 ≤ sps / N := by
      rw [div_le_div_iff₀ (by positivity) h1]; nlinarith
    refine (fl32_lawful.err _).trans (max_le ?_ ?_)
    · rw [abs_of_pos h4]
    · have : (2 : ℚ) ^ (-149 : ℤ) / 2 ≤ 1 / 2 ^ 24 / 2 ^ 24 := by norm_num
      refine this.trans ?_
      gcongr
  · obtain ⟨p, ys', e', -, -, -, lv⟩ := C97_pulse_train_binary32 lowest highest sps hyst d0.pd h0' hw x N r w hx h1 h2 hex T
    rw [ep] at e'
    injection e' with e'
    injection e' with e1 e2
    rw [e2]
    exact lv

/-- The hypotheses are met: a detector for 128–2048 Hz at 8192 samples per second hears a rectangular wave of period 50. -/
example : ∃ d0, Pitch.mk' (⟨128⟩ : F32) ⟨2048⟩ 8192 ⟨1 / 128⟩ = .ok d0 ∧ ∀ T, 150 < T →
    ∃ d ys, runC Pitch.step d0 ((List.range T).map fun t => (⟨rect 50 7 20 t⟩ : F32)) = .ok (d, ys) ∧ |d.current.frequency.val - 8192 / 50| ≤ 8192 / 50 / 2 ^ 24 := by
  obtain ⟨p0, e, hw, hm⟩ := mk32
  refine ⟨{ pd := p0, current := PitchInfo.zero, sps := 8192, framesAfterShift := 0 }, by rw [Pitch.mk', e]; rfl, fun T hT => ?_⟩
  obtain ⟨d, ys, e1, -, -, -, f, lv⟩ := C98_pulse_train_binary32 ⟨128⟩ ⟨2048⟩ 8192 (1 / 128) (by norm_num) _ (by rw [Pitch.mk', e]; rfl) (by show p0.zc.window ≤ _; omega)
    (rect 50 7 20) 50 7 20 (rect_train32 (by omega) (by omega) (by omega)) (by show _ ≤ p0.zc.window; omega) (by show p0.minPeriod ≤ _; omega)
    (Or.inr (by norm_num)) T
  refine ⟨d, ys, e1, ?_⟩
  have := f (by norm_num) (lv (by show p0.zc.window + 20 < T; omega))
  exact_mod_cast this

end Verif
