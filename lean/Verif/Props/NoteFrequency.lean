import Verif.Model.Midi
import Verif.Proof.RoundScale
import Mathlib.Analysis.SpecialFunctions.Pow.Real
import Mathlib.Tactic.IntervalCases
/-!
# Note frequencies (C40)

`double` arithmetic: `fl64` is IEEE-754 binary64 rounding to nearest; the accuracy theorem holds for every
lawful rounding.
-/
namespace Verif
open Midi Rounding

namespace Midi

/-- Specification: the frequency of a key in twelve-tone equal temperament, A4 (key 69) = 440 Hz. -/
noncomputable def equalTempered (key : Nat) : ℝ := 440 * (2 : ℝ) ^ (((key : ℝ) - 69) / 12)

section lawful
variable {fd : ℚ → ℚ} (L : Lawful 53 (-1074) fd)
include L

theorem fd_rel {x : ℚ} (hx : 1 ≤ x) : x * (1 - 1 / 2 ^ 53) ≤ fd x ∧ fd x ≤ x * (1 + 1 / 2 ^ 53) := by
  have h := L.err x
  rw [abs_of_nonneg (by linarith : 0 ≤ x)] at h
  have h2 : max (x / 2 ^ 53) ((2 : ℚ) ^ (-1074 : ℤ) / 2) = x / 2 ^ 53 := by
    apply max_eq_left
    have : (2 : ℚ) ^ (-1074 : ℤ) / 2 ≤ 1 / 2 ^ 53 := by
      have h1 : (2 : ℚ) ^ (-1074 : ℤ) ≤ 2 ^ (-53 : ℤ) := zpow_le_zpow_right₀ (by norm_num) (by norm_num)
      have h2 : (2 : ℚ) ^ (-53 : ℤ) = 1 / 2 ^ 53 := by norm_num
      have h3 := two_zpow_pos (-1074)
      rw [h2] at h1
      generalize (2 : ℚ) ^ (-1074 : ℤ) = u at *
      linarith
    have : 1 / 2 ^ 53 ≤ x / 2 ^ 53 := by
      apply div_le_div_of_nonneg_right hx (by positivity)
    linarith
  rw [h2, abs_le] at h
  constructor <;> (have e : x / 2 ^ 53 = x * (1 / 2 ^ 53) := by ring) <;> rw [e] at h <;> linarith

/-- The literal `1.059463094359295`. -/
def rootLit : ℚ := 1059463094359295 / 10 ^ 15

theorem root_bounds : rootLit * (1 - 1 / 2 ^ 53) ≤ root12 fd ∧ root12 fd ≤ rootLit * (1 + 1 / 2 ^ 53) :=
  fd_rel L (by unfold rootLit; norm_num)

theorem octave_bounds (base : ℚ) (hb : 1 ≤ base) (i : Nat) :
    base * (rootLit * (1 - 1 / 2 ^ 53) ^ 2) ^ i ≤ octaveFrequency fd base i ∧
    octaveFrequency fd base i ≤ base * (rootLit * (1 + 1 / 2 ^ 53) ^ 2) ^ i ∧ 1 ≤ octaveFrequency fd base i := by
  induction i with
  | zero => simp [octaveFrequency, hb]
  | succ i ih =>
    obtain ⟨h1, h2, h3⟩ := ih
    obtain ⟨r1, r2⟩ := root_bounds L
    have hr : 1 ≤ root12 fd := le_trans (by unfold rootLit; norm_num) r1
    unfold octaveFrequency nextFrequency
    set f := octaveFrequency fd base i
    have hp : 1 ≤ f * root12 fd := by nlinarith
    obtain ⟨b1, b2⟩ := fd_rel L hp
    have lo : 0 < (1 : ℚ) - 1 / 2 ^ 53 := by norm_num
    have hi : 0 < (1 : ℚ) + 1 / 2 ^ 53 := by norm_num
    have hlit : 0 < rootLit := by unfold rootLit; norm_num
    refine ⟨?_, ?_, ?_⟩
    · calc base * (rootLit * (1 - 1 / 2 ^ 53) ^ 2) ^ (i + 1)
          = (base * (rootLit * (1 - 1 / 2 ^ 53) ^ 2) ^ i) * (rootLit * (1 - 1 / 2 ^ 53)) * (1 - 1 / 2 ^ 53) := by ring
        _ ≤ f * (rootLit * (1 - 1 / 2 ^ 53)) * (1 - 1 / 2 ^ 53) := by
            apply mul_le_mul_of_nonneg_right _ lo.le
            apply mul_le_mul_of_nonneg_right h1
            positivity
        _ ≤ f * root12 fd * (1 - 1 / 2 ^ 53) := by
            apply mul_le_mul_of_nonneg_right _ lo.le
            apply mul_le_mul_of_nonneg_left r1 (by linarith)
        _ ≤ _ := b1
    · calc fd (f * root12 fd) ≤ f * root12 fd * (1 + 1 / 2 ^ 53) := b2
        _ ≤ f * (rootLit * (1 + 1 / 2 ^ 53)) * (1 + 1 / 2 ^ 53) := by
            apply mul_le_mul_of_nonneg_right _ hi.le
            apply mul_le_mul_of_nonneg_left r2 (by linarith)
        _ ≤ (base * (rootLit * (1 + 1 / 2 ^ 53) ^ 2) ^ i) * (rootLit * (1 + 1 / 2 ^ 53)) * (1 + 1 / 2 ^ 53) := by
            apply mul_le_mul_of_nonneg_right _ hi.le
            apply mul_le_mul_of_nonneg_right h2
            positivity
        _ = _ := by ring
    · exact L.ge_of_rep ⟨1, 0, by norm_num, by norm_num, by norm_num⟩ hp

end lawful

/-- The twelfth root of two lies between the bounds of one step, up to a relative error `7e-16`. -/
theorem root_two :
    (2 : ℝ) ^ ((1 : ℝ) / 12) * (1 - 7 / 10 ^ 16) ≤ ((rootLit * (1 - 1 / 2 ^ 53) ^ 2 : ℚ) : ℝ) ∧
    ((rootLit * (1 + 1 / 2 ^ 53) ^ 2 : ℚ) : ℝ) ≤ (2 : ℝ) ^ ((1 : ℝ) / 12) * (1 + 7 / 10 ^ 16) := by
  set r : ℝ := (2 : ℝ) ^ ((1 : ℝ) / 12) with hr
  have r0 : 0 < r := by positivity
  have r12 : r ^ 12 = 2 := by
    rw [hr, ← Real.rpow_natCast, ← Real.rpow_mul (by norm_num)]; norm_num
  constructor
  · apply le_of_pow_le_pow_left₀ (n := 12) (by norm_num) (by unfold rootLit; push_cast; norm_num)
    rw [mul_pow, r12]
    unfold rootLit
    push_cast
    norm_num
  · apply le_of_pow_le_pow_left₀ (n := 12) (by norm_num) (by positivity)
    rw [mul_pow, r12]
    unfold rootLit
    push_cast
    norm_num

theorem equalTempered_split (o i : Nat) :
    equalTempered (9 + 12 * o + i) = 55 / 4 * 2 ^ o * ((2 : ℝ) ^ ((1 : ℝ) / 12)) ^ i := by
  unfold equalTempered
  have : (((9 + 12 * o + i : ℕ) : ℝ) - 69) / 12 = (o : ℝ) + (-5 : ℝ) + (1 / 12) * i := by push_cast; ring
  rw [this, Real.rpow_add (by norm_num), Real.rpow_add (by norm_num), Real.rpow_mul (by norm_num),
    Real.rpow_natCast, Real.rpow_natCast]
  have : (2 : ℝ) ^ (-5 : ℝ) = 1 / 32 := by
    rw [show (-5 : ℝ) = ((-5 : ℤ) : ℝ) by norm_num, Real.rpow_intCast]; norm_num
  rw [this]; ring

theorem noteBases_get (o : Nat) (ho : o < 10) : readAt noteBases o = .ok (55 / 4 * 2 ^ o) := by
  interval_cases o <;> (unfold noteBases readAt; norm_num)

theorem noteFrequency_split (fd : ℚ → ℚ) (k : BitVec 8) (h1 : 9 ≤ k.toNat) (h2 : k.toNat ≤ 119) :
    noteFrequency fd k = .ok (octaveFrequency fd (55 / 4 * 2 ^ ((k.toNat - 9) / 12)) ((k.toNat - 9) % 12)) := by
  unfold noteFrequency
  rw [if_neg (by omega), noteBases_get _ (by omega)]
  rfl

theorem base_ge (o : Nat) : (1 : ℚ) ≤ 55 / 4 * 2 ^ o := by
  have : (1 : ℚ) ≤ 2 ^ o := one_le_pow₀ (by norm_num)
  linarith

theorem octave_double (base : ℚ) (hb : 1 ≤ base) (i : Nat) :
    octaveFrequency fl64 (2 * base) i = 2 * octaveFrequency fl64 base i := by
  induction i with
  | zero => rfl
  | succ i ih =>
    unfold octaveFrequency nextFrequency
    rw [ih, mul_assoc]
    apply rnd_two_mul
    obtain ⟨_, _, h3⟩ := octave_bounds fl64_lawful base hb i
    obtain ⟨r1, r2⟩ := root_bounds fl64_lawful
    have hr : 1 ≤ root12 fl64 := le_trans (by unfold rootLit; norm_num) r1
    have hp : 1 ≤ octaveFrequency fl64 base i * root12 fl64 := by nlinarith
    refine le_trans (le_trans ?_ hp) (le_abs_self _)
    exact zpow_le_one_of_nonpos₀ (by norm_num) (by norm_num)

end Midi

/-- **C40** The frequency of every key from 9 to 119 is within a relative error of `1e-14` of twelve-tone equal
temperament with A4 = 440 Hz (rounding of every `double` operation included). -/
theorem C40_equal_temperament {fd : ℚ → ℚ} (L : Lawful 53 (-1074) fd) (k : BitVec 8) (h1 : 9 ≤ k.toNat)
    (h2 : k.toNat ≤ 119) :
    ∃ f, noteFrequency fd k = .ok f ∧
      |(f : ℝ) - equalTempered k.toNat| ≤ equalTempered k.toNat / 10 ^ 14 := by
  refine ⟨_, noteFrequency_split fd k h1 h2, ?_⟩
  have hi : (k.toNat - 9) % 12 < 12 := Nat.mod_lt _ (by norm_num)
  have hk : k.toNat = 9 + 12 * ((k.toNat - 9) / 12) + (k.toNat - 9) % 12 := by omega
  generalize (k.toNat - 9) / 12 = o at *
  generalize (k.toNat - 9) % 12 = i at *
  rw [hk, equalTempered_split]
  obtain ⟨b1, b2, _⟩ := octave_bounds L (55 / 4 * 2 ^ o) (base_ge o) i
  generalize octaveFrequency fd (55 / 4 * 2 ^ o) i = f at *
  obtain ⟨t1, t2⟩ := root_two
  have hpos : (0 : ℚ) ≤ rootLit * (1 + 1 / 2 ^ 53) ^ 2 := by unfold rootLit; norm_num
  have hpos' := (Rat.cast_le (K := ℝ)).mpr hpos
  rw [Rat.cast_zero] at hpos'
  generalize (rootLit * (1 - 1 / 2 ^ 53) ^ 2 : ℚ) = lo at *
  generalize (rootLit * (1 + 1 / 2 ^ 53) ^ 2 : ℚ) = hi' at *
  have r0 : (0 : ℝ) < (2 : ℝ) ^ ((1 : ℝ) / 12) := by positivity
  generalize (2 : ℝ) ^ ((1 : ℝ) / 12) = r at *
  have c1 := (Rat.cast_le (K := ℝ)).mpr b1
  have c2 := (Rat.cast_le (K := ℝ)).mpr b2
  push_cast at c1 c2
  have B : (0 : ℝ) < 55 / 4 * 2 ^ o := by positivity
  have p1 : (r * (1 - 7 / 10 ^ 16)) ^ i ≤ (lo : ℝ) ^ i := pow_le_pow_left₀ (by nlinarith) t1 i
  have p2 : (hi' : ℝ) ^ i ≤ (r * (1 + 7 / 10 ^ 16)) ^ i :=
    pow_le_pow_left₀ hpos' t2 i
  rw [mul_pow] at p1 p2
  have q1 : (1 : ℝ) - 1 / 10 ^ 14 ≤ (1 - 7 / 10 ^ 16) ^ i := by
    calc (1 : ℝ) - 1 / 10 ^ 14 ≤ (1 - 7 / 10 ^ 16) ^ 11 := by norm_num
      _ ≤ _ := pow_le_pow_of_le_one (by norm_num) (by norm_num) (by omega)
  have q2 : (1 + 7 / 10 ^ 16 : ℝ) ^ i ≤ 1 + 1 / 10 ^ 14 := by
    calc (1 + 7 / 10 ^ 16 : ℝ) ^ i ≤ (1 + 7 / 10 ^ 16) ^ 11 := pow_le_pow_right₀ (by norm_num) (by omega)
      _ ≤ _ := by norm_num
  have R : 0 < r ^ i := by positivity
  have s1 : r ^ i * (1 - 1 / 10 ^ 14) ≤ (lo : ℝ) ^ i := le_trans (mul_le_mul_of_nonneg_left q1 R.le) p1
  have s2 : (hi' : ℝ) ^ i ≤ r ^ i * (1 + 1 / 10 ^ 14) := le_trans p2 (mul_le_mul_of_nonneg_left q2 R.le)
  have u1 := mul_le_mul_of_nonneg_left s1 B.le
  have u2 := mul_le_mul_of_nonneg_left s2 B.le
  rw [abs_le]
  constructor
  · have : (55 / 4 * 2 ^ o : ℝ) * (r ^ i * (1 - 1 / 10 ^ 14)) =
      55 / 4 * 2 ^ o * r ^ i - (55 / 4 * 2 ^ o * r ^ i) / 10 ^ 14 := by ring
    linarith
  · have : (55 / 4 * 2 ^ o : ℝ) * (r ^ i * (1 + 1 / 10 ^ 14)) =
      55 / 4 * 2 ^ o * r ^ i + (55 / 4 * 2 ^ o * r ^ i) / 10 ^ 14 := by ring
    linarith

example : ∃ f, noteFrequency fl64 60#8 = .ok f ∧ |(f : ℝ) - equalTempered 60| ≤ equalTempered 60 / 10 ^ 14 :=
  C40_equal_temperament fl64_lawful 60#8 (by decide) (by decide)

/-- **C40** One octave up is exactly twice the frequency. -/
theorem C40_octave (k : BitVec 8) (h1 : 9 ≤ k.toNat) (h2 : k.toNat + 12 ≤ 119) :
    ∃ f, noteFrequency fl64 k = .ok f ∧ noteFrequency fl64 (k + 12#8) = .ok (2 * f) := by
  have hk : (k + 12#8).toNat = k.toNat + 12 := by
    rw [BitVec.toNat_add]; simp; omega
  refine ⟨_, noteFrequency_split fl64 k h1 (by omega), ?_⟩
  rw [noteFrequency_split fl64 (k + 12#8) (by omega) (by omega), hk,
    show (k.toNat + 12 - 9) / 12 = (k.toNat - 9) / 12 + 1 by omega,
    show (k.toNat + 12 - 9) % 12 = (k.toNat - 9) % 12 by omega, ← octave_double _ (base_ge _)]
  congr 2
  ring

/-- **C40** The A's are exact: key `9 + 12 o` has frequency `13.75 * 2^o`, so A4 (key 69) is 440 Hz; keys outside
9..119 have frequency 0. -/
theorem C40_anchor_and_range (fd : ℚ → ℚ) (k : BitVec 8) :
    noteFrequency fd 69#8 = .ok 440 ∧
    (∀ o : Nat, k.toNat = 9 + 12 * o → o < 10 → noteFrequency fd k = .ok (55 / 4 * 2 ^ o)) ∧
    ((k.toNat < 9 ∨ 119 < k.toNat) → noteFrequency fd k = .ok 0) := by
  refine ⟨?_, ?_, ?_⟩
  · rw [noteFrequency_split fd 69#8 (by decide) (by decide)]
    show Except.ok (octaveFrequency fd (55 / 4 * 2 ^ 5) 0) = _
    unfold octaveFrequency
    norm_num
  · intro o ho h10
    rw [noteFrequency_split fd k (by omega) (by omega), ho, show (9 + 12 * o - 9) / 12 = o by omega,
      show (9 + 12 * o - 9) % 12 = 0 by omega]
    rfl
  · intro h
    unfold noteFrequency
    rw [if_pos h]

namespace Midi
/-- Specification: semitones above C. -/
def NoteArr.semitone : NoteArr → Nat
  | .C => 0 | .Cs => 1 | .Db => 1 | .D => 2 | .Ds => 3 | .eb => 3 | .E => 4 | .F => 5 | .Fs => 6 | .Gb => 6
  | .G => 7 | .Gs => 8 | .Ab => 8 | .A => 9 | .As => 10 | .Bb => 10 | .B => 11

theorem noteConst_get (fd : ℚ → ℚ) (x : NoteArr) (o : Nat) (ho : o < 8) :
    noteConst fd x o = .ok (x.member (octaveNotes fd (2 * (55 / 4 * 2 ^ o)))) := by
  interval_cases o <;> (unfold noteConst readAt noteArray; norm_num)

theorem half_step (base : ℚ) (hb : 1 ≤ base) :
    fl64 (nextFrequency fl64 (octaveFrequency fl64 (2 * base) 2) / 2) = octaveFrequency fl64 base 3 := by
  have : nextFrequency fl64 (octaveFrequency fl64 (2 * base) 2) = octaveFrequency fl64 (2 * base) 3 := rfl
  rw [this, octave_double base hb]
  rw [mul_div_cancel_left₀ _ (by norm_num : (2 : ℚ) ≠ 0)]
  exact fl64_lawful.idem _
end Midi

/-- **C40** (partial: all arrays of namespace `notes` except `eb`.)  The constants `notes::X[o]` are exactly the
frequencies of the corresponding MIDI keys. -/
theorem C40_note_constants_partial (x : NoteArr) (o : Nat) (ho : o < 8) (hx : x ≠ .eb) :
    noteConst fl64 x o = noteFrequency fl64 (BitVec.ofNat 8 (12 * (o + 1) + x.semitone)) := by
  have hs : x.semitone ≤ 11 := by cases x <;> decide
  have hk : (BitVec.ofNat 8 (12 * (o + 1) + x.semitone)).toNat = 12 * (o + 1) + x.semitone := by
    rw [BitVec.toNat_ofNat]; omega
  rw [noteConst_get _ _ _ ho, noteFrequency_split _ _ (by omega) (by omega), hk]
  have hC : (octaveNotes fl64 (2 * (55 / 4 * 2 ^ o))).C = octaveFrequency fl64 (55 / 4 * 2 ^ o) 3 :=
    half_step _ (base_ge o)
  have e1 : (2 * (55 / 4 * 2 ^ o) : ℚ) = 55 / 4 * 2 ^ (o + 1) := by ring
  congr 1
  cases x
  case eb => exact absurd rfl hx
  case A => simp only [NoteArr.member, NoteArr.semitone, show (12 * (o + 1) + 9 - 9) / 12 = o + 1 by omega, show (12 * (o + 1) + 9 - 9) % 12 = 0 by omega, ← e1]; rfl
  case As => simp only [NoteArr.member, NoteArr.semitone, show (12 * (o + 1) + 10 - 9) / 12 = o + 1 by omega, show (12 * (o + 1) + 10 - 9) % 12 = 1 by omega, ← e1]; rfl
  case Bb => simp only [NoteArr.member, NoteArr.semitone, show (12 * (o + 1) + 10 - 9) / 12 = o + 1 by omega, show (12 * (o + 1) + 10 - 9) % 12 = 1 by omega, ← e1]; rfl
  case B => simp only [NoteArr.member, NoteArr.semitone, show (12 * (o + 1) + 11 - 9) / 12 = o + 1 by omega, show (12 * (o + 1) + 11 - 9) % 12 = 2 by omega, ← e1]; rfl
  case C => simp only [NoteArr.member, NoteArr.semitone, show (12 * (o + 1) + 0 - 9) / 12 = o by omega, show (12 * (o + 1) + 0 - 9) % 12 = 3 by omega]; exact hC
  case Cs => simp only [NoteArr.member, NoteArr.semitone, show (12 * (o + 1) + 1 - 9) / 12 = o by omega, show (12 * (o + 1) + 1 - 9) % 12 = 4 by omega]; exact congrArg (nextFrequency fl64) hC
  case Db => simp only [NoteArr.member, NoteArr.semitone, show (12 * (o + 1) + 1 - 9) / 12 = o by omega, show (12 * (o + 1) + 1 - 9) % 12 = 4 by omega]; exact congrArg (nextFrequency fl64) hC
  case D => simp only [NoteArr.member, NoteArr.semitone, show (12 * (o + 1) + 2 - 9) / 12 = o by omega, show (12 * (o + 1) + 2 - 9) % 12 = 5 by omega]; exact congrArg (fun z => nextFrequency fl64 (nextFrequency fl64 z)) hC
  case Ds => simp only [NoteArr.member, NoteArr.semitone, show (12 * (o + 1) + 3 - 9) / 12 = o by omega, show (12 * (o + 1) + 3 - 9) % 12 = 6 by omega]; exact congrArg (fun z => nextFrequency fl64 (nextFrequency fl64 (nextFrequency fl64 z))) hC
  case E => simp only [NoteArr.member, NoteArr.semitone, show (12 * (o + 1) + 4 - 9) / 12 = o by omega, show (12 * (o + 1) + 4 - 9) % 12 = 7 by omega]; exact congrArg (fun z => nextFrequency fl64 (nextFrequency fl64 (nextFrequency fl64 (nextFrequency fl64 z)))) hC
  case F => simp only [NoteArr.member, NoteArr.semitone, show (12 * (o + 1) + 5 - 9) / 12 = o by omega, show (12 * (o + 1) + 5 - 9) % 12 = 8 by omega]; exact congrArg (fun z => (nextFrequency fl64)^[5] z) hC
  case Fs => simp only [NoteArr.member, NoteArr.semitone, show (12 * (o + 1) + 6 - 9) / 12 = o by omega, show (12 * (o + 1) + 6 - 9) % 12 = 9 by omega]; exact congrArg (fun z => (nextFrequency fl64)^[6] z) hC
  case Gb => simp only [NoteArr.member, NoteArr.semitone, show (12 * (o + 1) + 6 - 9) / 12 = o by omega, show (12 * (o + 1) + 6 - 9) % 12 = 9 by omega]; exact congrArg (fun z => (nextFrequency fl64)^[6] z) hC
  case G => simp only [NoteArr.member, NoteArr.semitone, show (12 * (o + 1) + 7 - 9) / 12 = o by omega, show (12 * (o + 1) + 7 - 9) % 12 = 10 by omega]; exact congrArg (fun z => (nextFrequency fl64)^[7] z) hC
  case Gs => simp only [NoteArr.member, NoteArr.semitone, show (12 * (o + 1) + 8 - 9) / 12 = o by omega, show (12 * (o + 1) + 8 - 9) % 12 = 11 by omega]; exact congrArg (fun z => (nextFrequency fl64)^[8] z) hC
  case Ab => simp only [NoteArr.member, NoteArr.semitone, show (12 * (o + 1) + 8 - 9) / 12 = o by omega, show (12 * (o + 1) + 8 - 9) % 12 = 11 by omega]; exact congrArg (fun z => (nextFrequency fl64)^[8] z) hC

/-- **C40** is false for `notes::eb`: in every octave it is the frequency of E natural, a different note (key
`12 (o + 1) + 4` instead of `12 (o + 1) + 3`). -/
theorem C40_eb_violation (o : Nat) (ho : o < 8) :
    noteConst fl64 .eb o = noteFrequency fl64 (BitVec.ofNat 8 (12 * (o + 1) + 4)) ∧
    noteConst fl64 .eb o ≠ noteFrequency fl64 (BitVec.ofNat 8 (12 * (o + 1) + 3)) := by
  have h1 : noteConst fl64 .eb o = noteConst fl64 .E o := by
    rw [noteConst_get _ _ _ ho, noteConst_get _ _ _ ho]; rfl
  have h2 := C40_note_constants_partial .E o ho (by decide)
  have h3 := C40_note_constants_partial .Ds o ho (by decide)
  refine ⟨h1.trans h2, ?_⟩
  rw [h1]
  have e : noteFrequency fl64 (BitVec.ofNat 8 (12 * (o + 1) + 3)) = noteConst fl64 .Ds o := h3.symm
  rw [e, noteConst_get _ _ _ ho, noteConst_get _ _ _ ho]
  intro h
  injection h with h
  have hE : (octaveNotes fl64 (2 * (55 / 4 * 2 ^ o))).E = octaveFrequency fl64 (55 / 4 * 2 ^ o) 7 :=
    congrArg (fun z => (nextFrequency fl64)^[4] z) (half_step (55 / 4 * 2 ^ o) (base_ge o))
  have hD : (octaveNotes fl64 (2 * (55 / 4 * 2 ^ o))).Ds = octaveFrequency fl64 (55 / 4 * 2 ^ o) 6 :=
    congrArg (fun z => (nextFrequency fl64)^[3] z) (half_step (55 / 4 * 2 ^ o) (base_ge o))
  have h' : octaveFrequency fl64 (55 / 4 * 2 ^ o) 7 = octaveFrequency fl64 (55 / 4 * 2 ^ o) 6 := by
    rw [← hE, ← hD]; exact h
  obtain ⟨_, _, b3⟩ := octave_bounds fl64_lawful (55 / 4 * 2 ^ o) (base_ge o) 6
  have step : octaveFrequency fl64 (55 / 4 * 2 ^ o) 7
      = fl64 (octaveFrequency fl64 (55 / 4 * 2 ^ o) 6 * root12 fl64) := rfl
  rw [step] at h'
  generalize octaveFrequency fl64 (55 / 4 * 2 ^ o) 6 = f at *
  obtain ⟨r1, _⟩ := root_bounds fl64_lawful
  have hr : (105 / 100 : ℚ) ≤ root12 fl64 := le_trans (by unfold rootLit; norm_num) r1
  have hp : 1 ≤ f * root12 fl64 := by nlinarith
  have hp2 : f * (105 / 100) ≤ f * root12 fl64 := mul_le_mul_of_nonneg_left hr (by linarith)
  obtain ⟨g1, _⟩ := fd_rel fl64_lawful hp
  have g2 : f * (105 / 100) * (1 - 1 / 2 ^ 53) ≤ f * root12 fl64 * (1 - 1 / 2 ^ 53) :=
    mul_le_mul_of_nonneg_right hp2 (by norm_num)
  rw [h'] at g1
  have : f * (105 / 100) * (1 - 1 / 2 ^ 53) ≤ f := le_trans g2 g1
  have : (105 / 100 : ℚ) * (1 - 1 / 2 ^ 53) > 1 := by norm_num
  nlinarith

end Verif
